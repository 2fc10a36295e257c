import Verif.SpecAlphabet
import Verif.Lemmas.IntMod
import Verif.Lemmas.XDigital
import Verif.Lemmas.Frame

/-! # A call with the operands that the mapping sees -/

set_option linter.unusedSectionVars false

namespace Acs

open Spec

/-- Where `a` returns, `b` returns the same. -/
def Below {ε α : Type} (a b : Except ε α) : Prop := ∀ r, a = .ok r → b = .ok r

theorem Below.refl {ε α : Type} (a : Except ε α) : Below a a := fun _ h => h

theorem Below.bind {α β : Type} {a b : C α} {f g : α → C β} (h : Below a b) (hf : ∀ x, a = .ok x → Below (f x) (g x)) :
    Below (a >>= f) (b >>= g) := by
  intro r hr
  rw [bind_eq_ok] at hr
  obtain ⟨x, h1, h2⟩ := hr
  rw [h x h1, ok_bind]
  exact hf x h1 r h2

theorem Below.loop {σ : Type} {n : Nat} {f g : Nat → σ → C σ} {s : σ} (h : ∀ i, i < n → ∀ t, Below (f i t) (g i t)) :
    Below (Acs.loop n f s) (Acs.loop n g s) := by
  induction n with
  | zero => exact Below.refl _
  | succ n ih =>
    rw [loop_succ, loop_succ]
    exact (ih fun i hi => h i (by omega)).bind fun x _ => h n (by omega) x

theorem Below.setG {α : Type} {n : Nat} {f g : Nat → C α} {v : Vec α} (h : ∀ i, i < n → Below (f i) (g i)) :
    Below (Acs.setG n f v) (Acs.setG n g v) := by
  unfold Acs.setG
  exact Below.loop fun i hi t => (h i hi).bind fun _ _ => Below.refl _

theorem rd_seen {f : Int → Int} {v : Vec Int} {i : Nat} {β : Type} {k k' : Int → C β}
    (h : Below (k (v.get i)) (k' (f (v.get i)))) : Below (v.rd i >>= k) ((seenVec f v).rd i >>= k') := by
  intro r hr
  rw [bind_eq_ok] at hr
  obtain ⟨x, h1, h2⟩ := hr
  obtain ⟨h3, rfl⟩ := Vec.rd_eq_ok.1 h1
  have h4 : (seenVec f v).rd i = .ok (f (v.get i)) := Vec.rd_eq_ok.2 ⟨h3, rfl⟩
  rw [h4, ok_bind]
  exact h r h2

theorem tdiv_seen (x : Int) : (1 - 2 * (1 - x).tdiv 2 - 1).tdiv (-2) = (x - 1).tdiv (-2) := by
  rw [Int.tdiv_neg, Int.tdiv_neg, show 1 - 2 * (1 - x).tdiv 2 - 1 = 2 * -(1 - x).tdiv 2 by ring,
    Int.mul_tdiv_cancel_left _ (by norm_num), ← Int.neg_tdiv, neg_sub]

theorem tdiv_range {x : Int} (h : InI32 (x - 1)) : InI32 (1 - 2 * (1 - x).tdiv 2 - 1) := by
  unfold InI32 at h ⊢
  rcases le_total 0 (1 - x) with k | k
  · rw [Int.tdiv_eq_ediv_of_nonneg k]
    omega
  · rw [← neg_sub x 1, Int.neg_tdiv, Int.tdiv_eq_ediv_of_nonneg (by omega)]
    omega

/-! ## Inputs -/

section
variable {n : Nat} {vec v : Vec Int}

theorem encBnn1_seen : Below (encBnn1 n vec v) (encBnn1 n (seenVec (seenX .bnn1) vec) v) := by
  unfold encBnn1
  refine Below.setG fun i _ => rd_seen fun r hr => ?_
  simp only [bind_eq_ok, addI_eq_ok] at hr ⊢
  obtain ⟨y, ⟨h1, rfl⟩, h2⟩ := hr
  obtain ⟨h3, rfl⟩ := shrI_eq_ok.1 h2
  refine ⟨_, ⟨?_, rfl⟩, shrI_eq_ok.2 ⟨h3, ?_⟩⟩ <;> unfold seenX <;> unfold InI32 at * <;> dsimp only <;> omega

theorem encBnn2_seen : Below (encBnn2 n vec v) (encBnn2 n (seenVec (seenX .bnn2) vec) v) := by
  unfold encBnn2
  refine Below.setG fun i _ => rd_seen fun r hr => ?_
  simp only [bind_eq_ok, subI_eq_ok, ok_inj] at hr ⊢
  obtain ⟨y, ⟨h1, rfl⟩, rfl⟩ := hr
  exact ⟨_, ⟨tdiv_range h1, rfl⟩, tdiv_seen _⟩

theorem encNonzero_seen : Below (encNonzero n vec v) (encNonzero n (seenVec (seenX .tnn2) vec) v) := by
  unfold encNonzero
  refine Below.setG fun i _ => rd_seen fun r hr => ?_
  rw [← hr]
  unfold seenX
  dsimp only
  split
  · next h => rw [h]
  · next h => split <;> simp [h]

theorem encNegOne_seen : Below (encNegOne n vec v) (encNegOne n (seenVec (seenX .tnn2) vec) v) := by
  unfold encNegOne
  refine Below.setG fun i _ => rd_seen fun r hr => ?_
  rw [← hr]
  unfold seenX
  dsimp only
  split
  · next h => rw [h]
  · next h => split <;> simp_all

theorem encBit0_seen : Below (encBit0 n vec v) (encBit0 n (seenVec (seenX .tnn3) vec) v) := by
  unfold encBit0
  refine Below.setG fun i _ => rd_seen fun r hr => ?_
  simp only [bind_eq_ok, addI_eq_ok, and32_one, ok_inj] at hr ⊢
  obtain ⟨y, ⟨h1, rfl⟩, rfl⟩ := hr
  refine ⟨_, ⟨?_, rfl⟩, ?_⟩ <;> unfold seenX <;> unfold InI32 at * <;> dsimp only <;> omega

theorem encBit1_seen : Below (encBit1 n vec v) (encBit1 n (seenVec (seenX .tnn3) vec) v) := by
  unfold encBit1
  refine Below.setG fun i _ => rd_seen fun r hr => ?_
  simp only [bind_eq_ok, addI_eq_ok, shr_and_two, ok_inj] at hr ⊢
  obtain ⟨y, ⟨h1, rfl⟩, rfl⟩ := hr
  refine ⟨_, ⟨?_, rfl⟩, ?_⟩ <;> unfold seenX <;> unfold InI32 at * <;> dsimp only <;> omega

end

section
variable {K : Type} [Field K] [LinearOrder K] [IsStrictOrderedRing K] [FloorRing K]
variable {E : Env K} {cfg : Cfg K} {c : Core K} {a : Aux K} {x : Xbar K} {mat res vec : Vec Int} {m n : Nat} {l : String}

theorem dMvm_seen : Below (dMvm E cfg c a res vec m n) (dMvm E cfg c a res (seenVec (seenX c.mode) vec) m n) := by
  unfold dMvm
  cases c.mode <;> dsimp only
  case bnn1 => exact encBnn1_seen.bind fun _ _ => Below.refl _
  case bnn2 => exact encBnn2_seen.bind fun _ _ => Below.refl _
  case tnn2 =>
    exact encNonzero_seen.bind fun _ _ => (Below.refl _).bind fun _ _ => encNegOne_seen.bind fun _ _ => Below.refl _
  case tnn3 =>
    exact encBit0_seen.bind fun _ _ => (Below.refl _).bind fun _ _ => encBit1_seen.bind fun _ _ => Below.refl _
  all_goals exact fun _ h => h

theorem aMvm_seen : Below (aMvm E cfg c a res vec m n l) (aMvm E cfg c a res (seenVec (seenX c.mode) vec) m n l) := by
  unfold aMvm
  cases c.mode <;> dsimp only
  case bnn1 => exact encBnn1_seen.bind fun _ _ => Below.refl _
  case bnn2 => exact encBnn2_seen.bind fun _ _ => Below.refl _
  case tnn2 =>
    unfold aMvmTnnII
    refine encNonzero_seen.bind fun _ _ => ?_
    exact (Below.refl _).bind fun _ _ => (Below.refl _).bind fun _ _ => (Below.refl _).bind fun _ _ => (Below.refl _).bind fun _ _ => encNegOne_seen.bind fun _ _ => Below.refl _
  case tnn3 =>
    unfold aMvmTnnIII
    refine encBit0_seen.bind fun _ _ => ?_
    exact (Below.refl _).bind fun _ _ => (Below.refl _).bind fun _ _ => (Below.refl _).bind fun _ _ => (Below.refl _).bind fun _ _ => encBit1_seen.bind fun _ _ => Below.refl _
  all_goals exact fun _ h => h

/-! ## Weights -/

theorem dWriteGd_seen : Below (dWriteGd E cfg c mat m n) (dWriteGd E cfg c (seenVec (seenW c.mode) mat) m n) := by
  unfold dWriteGd
  cases c.mode <;> dsimp only
  case bnn3 =>
    unfold dWriteBnn3
    refine Below.loop fun i _ _ => Below.loop fun j _ _ => rd_seen fun r hr => ?_
    rw [bind_eq_ok] at hr ⊢
    obtain ⟨y, h1, hr⟩ := hr
    obtain ⟨h1, rfl⟩ := addI_eq_ok.1 h1
    rw [bind_eq_ok] at hr
    obtain ⟨z, h2, hr⟩ := hr
    obtain ⟨h3, rfl⟩ := shrI_eq_ok.1 h2
    refine ⟨_, addI_eq_ok.2 ⟨?_, rfl⟩, ?_⟩
    · unfold seenW; unfold InI32 at *; dsimp only; omega
    rw [bind_eq_ok]
    refine ⟨_, shrI_eq_ok.2 ⟨h3, ?_⟩, hr⟩
    unfold seenW; dsimp only; omega
  case bnn4 =>
    unfold dWriteBnn4
    refine Below.loop fun i _ _ => Below.loop fun j _ _ => rd_seen fun r hr => ?_
    rw [bind_eq_ok] at hr ⊢
    obtain ⟨y, h1, hr⟩ := hr
    obtain ⟨h2, rfl⟩ := subI_eq_ok.1 h1
    refine ⟨_, subI_eq_ok.2 ⟨tdiv_range h2, rfl⟩, ?_⟩
    unfold seenW
    dsimp only
    rw [tdiv_seen]
    exact hr
  case tnn4 =>
    unfold dWriteTcTnn
    split
    · refine Below.loop fun i _ _ => Below.loop fun j _ _ => rd_seen ?_
      have e1 : ∀ z, seenW .tnn4 z % 2 = z % 2 := fun z => by unfold seenW; dsimp only; omega
      have e2 : ∀ z, seenW .tnn4 z / 2 % 2 = z / 2 % 2 := fun z => by unfold seenW; dsimp only; omega
      simp only [Bool.false_eq_true, if_false, ok_bind, and32_one, shr_and_two, e1, e2]
      exact Below.refl _
    · exact Below.refl _
  case tnn5 =>
    unfold dWriteTcTnn
    split
    · refine Below.loop fun i _ _ => Below.loop fun j _ _ => rd_seen fun r hr => ?_
      have e1 : ∀ z, (seenW .tnn5 z + 1) % 2 = (z + 1) % 2 := fun z => by unfold seenW; dsimp only; omega
      have e2 : ∀ z, (seenW .tnn5 z + 1) / 2 % 2 = (z + 1) / 2 % 2 := fun z => by unfold seenW; dsimp only; omega
      rw [if_pos rfl, bind_eq_ok] at hr
      obtain ⟨y, h1, hr⟩ := hr
      obtain ⟨h1, rfl⟩ := addI_eq_ok.1 h1
      rw [if_pos rfl, addI_eq_ok.2 ⟨by unfold seenW; unfold InI32; dsimp only; omega, rfl⟩, ok_bind]
      simp only [and32_one, shr_and_two, e1, e2] at hr ⊢
      exact hr
    · exact Below.refl _
  all_goals exact fun _ h => h

theorem xMvm_seen_vec :
    Below (xMvm E cfg x res vec mat m n l) (xMvm E cfg x res (seenVec (seenX x.mapper.core.mode) vec) mat m n l) := by
  unfold xMvm
  dsimp only
  split
  · exact dMvm_seen.bind fun _ _ => Below.refl _
  · refine (Below.refl _).bind fun mp h => ?_
    have e : mp.core.mode = x.mapper.core.mode := by
      split at h
      · exact (addC2C_frame h).2.1.mode
      · rw [← ok_inj.1 h]
    rw [← e]
    exact aMvm_seen.bind fun _ _ => Below.refl _

theorem xWrite_seen : Below (xWrite E cfg x mat m n) (xWrite E cfg x (seenVec (seenW x.mapper.core.mode) mat) m n) := by
  have h : Below (dWrite E cfg x.mapper mat m n) (dWrite E cfg x.mapper (seenVec (seenW x.mapper.core.mode) mat) m n) :=
    dWriteGd_seen.bind fun _ _ => Below.refl _
  unfold xWrite xWriteD
  refine Below.bind ?_ fun _ _ => Below.refl _
  split
  · exact h.bind fun _ _ => Below.refl _
  · exact h.bind fun _ _ => Below.refl _

end

end Acs
