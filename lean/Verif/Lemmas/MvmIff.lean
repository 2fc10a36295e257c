import Verif.Lemmas.SessionInv

/-! # Which inputs a multiplication lets through -/

set_option linter.unusedSectionVars false

namespace Acs

open Spec

section
variable {α β : Type}

theorem updAt_inv {v v' : Vec α} {i : Nat} {f : α → C α} (h : updAt v i f = .ok v') : i < v.size ∧ v'.size = v.size := by
  unfold updAt at h
  simp only [bind_eq_ok, Vec.rd_eq_ok] at h
  obtain ⟨a, ⟨h1, _⟩, x, _, h2⟩ := h
  unfold Vec.wr at h2
  rw [if_pos h1, ok_inj] at h2
  subst h2
  exact ⟨h1, rfl⟩

/-- A loop that uses one element in each step stays inside the vector. -/
theorem loop_reads {m : Nat} {f : Nat → Vec α → C (Vec α)} {v v' : Vec α}
    (hf : ∀ i v v', f i v = .ok v' → i < v.size ∧ v'.size = v.size) (h : loop m f v = .ok v') :
    m ≤ v.size ∧ v'.size = v.size := by
  induction m generalizing v' with
  | zero =>
    cases h
    exact ⟨Nat.zero_le _, rfl⟩
  | succ m ih =>
    rw [loop_succ, bind_eq_ok] at h
    obtain ⟨u, h1, h2⟩ := h
    have k1 := ih h1
    have k2 := hf m u v' h2
    omega

theorem accRow_inv {add : α → β → C α} {t N : Nat} {term : Nat → C β} {v v' : Vec α}
    (h : accRow add t N term v = .ok v') : (0 < N → t < v.size) ∧ v'.size = v.size := by
  unfold accRow at h
  induction N generalizing v' with
  | zero =>
    cases h
    exact ⟨fun h => absurd h (by decide), rfl⟩
  | succ N ih =>
    rw [loop_succ, bind_eq_ok] at h
    obtain ⟨u, h1, h2⟩ := h
    have k1 := ih h1
    rw [bind_eq_ok] at h2
    obtain ⟨x, _, h2⟩ := h2
    have k2 := updAt_inv h2
    exact ⟨fun _ => by omega, by omega⟩

theorem accG_inv {add : α → β → C α} {m n : Nat} {term : Nat → Nat → C β} {v v' : Vec α} (hn : 0 < n)
    (h : accG add m n term v = .ok v') : m ≤ v.size := by
  unfold accG at h
  exact (loop_reads (fun i v v' h => by
    have := accRow_inv h
    exact ⟨this.1 hn, this.2⟩) h).1

end

section
variable {n : Nat} {vec vp vm : Vec Int}

theorem encPM_inv {r : Vec Int × Vec Int} (h : encPM n vec vp vm = .ok r) :
    ∀ j, j < n → j < vec.size ∧ (vec.get j = 1 ∨ vec.get j = -1) := by
  unfold encPM at h
  refine loop_all ?_ h
  intro j hj s t ht
  rw [bind_eq_ok] at ht
  obtain ⟨x, h1, h2⟩ := ht
  obtain ⟨hs, rfl⟩ := Vec.rd_eq_ok.1 h1
  refine ⟨hs, ?_⟩
  by_cases e : vec.get j = 1
  · exact .inl e
  rw [if_neg e] at h2
  by_cases e' : vec.get j = -1
  · exact .inr e'
  rw [if_neg e'] at h2
  cases h2

theorem encPMSum_inv {r : (Vec Int × Vec Int) × Int} (h : encPMSum n vec vp vm = .ok r) :
    ∀ j, j < n → j < vec.size ∧ (vec.get j = 1 ∨ vec.get j = -1) := by
  unfold encPMSum at h
  refine loop_all ?_ h
  intro j hj s t ht
  rw [bind_eq_ok] at ht
  obtain ⟨x, h1, h2⟩ := ht
  obtain ⟨hs, rfl⟩ := Vec.rd_eq_ok.1 h1
  rw [bind_eq_ok] at h2
  obtain ⟨_, _, h2⟩ := h2
  refine ⟨hs, ?_⟩
  by_cases e : vec.get j = 1
  · exact .inl e
  rw [if_neg e] at h2
  by_cases e' : vec.get j = -1
  · exact .inr e'
  rw [if_neg e'] at h2
  cases h2

theorem encTern_inv {r : Vec Int × Vec Int} (h : encTern n vec vp vm = .ok r) :
    ∀ j, j < n → j < vec.size ∧ (vec.get j = 1 ∨ vec.get j = -1 ∨ vec.get j = 0) := by
  unfold encTern at h
  refine loop_all ?_ h
  intro j hj s t ht
  rw [bind_eq_ok] at ht
  obtain ⟨x, h1, h2⟩ := ht
  obtain ⟨hs, rfl⟩ := Vec.rd_eq_ok.1 h1
  refine ⟨hs, ?_⟩
  by_cases e : vec.get j = 1
  · exact .inl e
  rw [if_neg e] at h2
  by_cases e' : vec.get j = -1
  · exact .inr (.inl e')
  rw [if_neg e'] at h2
  by_cases e0 : vec.get j = 0
  · exact .inr (.inr e0)
  rw [if_neg e0] at h2
  cases h2

end

section
variable {K : Type} [Field K] [LinearOrder K] [IsStrictOrderedRing K] [FloorRing K]
variable {E : Env K} {cfg : Cfg K} {c : Core K} {a : Aux K} {r : Aux K × Vec Int} {res vec : Vec Int} {m n : Nat}

/-- A multiplication that returns has looked at every input and every result. -/
theorem dMvm_reads (hm : checksX cfg.mode) (hc : c.mode = cfg.mode) (hn : 0 < n)
    (h : dMvm E cfg c a res vec m n = .ok r) : n ≤ vec.size ∧ m ≤ res.size ∧ LegalVec cfg vec n := by
  have key : (∀ j, j < n → j < vec.size ∧ LegalX cfg (vec.get j)) ∧ m ≤ res.size := by
    unfold dMvm at h
    rw [hc] at h
    unfold LegalX
    cases hmd : cfg.mode <;> simp only [hmd, checksX] at hm h ⊢
    case bnn3 =>
      unfold dMvmBnnIII at h
      simp only [bind_eq_ok] at h
      obtain ⟨v, h1, q, h2, _⟩ := h
      refine ⟨encPMSum_inv h1, (loop_reads (fun i v v' h => ?_) h2).1⟩
      simp only [bind_eq_ok] at h
      obtain ⟨u, h3, h4⟩ := h
      have := updAt_inv h3
      have := accRow_inv h4
      omega
    case bnn4 =>
      unfold dMvmBnnIV at h
      simp only [bind_eq_ok] at h
      obtain ⟨v, h1, q, h2, _⟩ := h
      refine ⟨encPMSum_inv h1, (loop_reads (fun i v v' h => ?_) h2).1⟩
      simp only [bind_eq_ok] at h
      obtain ⟨u, h3, h4⟩ := h
      have := updAt_inv h3
      have := accRow_inv h4
      omega
    case bnn5 =>
      unfold dMvmBnnV at h
      simp only [bind_eq_ok] at h
      obtain ⟨v, h1, q, h2, _⟩ := h
      refine ⟨encPM_inv h1, (loop_reads (fun i v v' h => ?_) h2).1⟩
      simp only [bind_eq_ok] at h
      obtain ⟨u, h3, h4⟩ := h
      have := updAt_inv h3
      have := accRow_inv h4
      omega
    case bnn6 =>
      unfold dMvmBnnVI at h
      simp only [bind_eq_ok] at h
      obtain ⟨v, h1, q, h2, _⟩ := h
      exact ⟨encPM_inv h1, accG_inv hn h2⟩
    case tnn1 =>
      unfold dMvmTnnI at h
      simp only [bind_eq_ok] at h
      obtain ⟨v, h1, q, h2, _⟩ := h
      exact ⟨encTern_inv h1, accG_inv hn h2⟩
    case tnn4 =>
      unfold dMvmTnnIV at h
      split at h
      · cases h
      rw [bind_eq_ok] at h
      obtain ⟨v, h1, h⟩ := h
      rw [bind_eq_ok] at h
      obtain ⟨q, h2, _⟩ := h
      exact ⟨encTern_inv h1, accG_inv hn h2⟩
    case tnn5 =>
      unfold dMvmTnnV at h
      split at h
      · cases h
      rw [bind_eq_ok] at h
      obtain ⟨s, _, h⟩ := h
      rw [bind_eq_ok] at h
      obtain ⟨v, h1, h⟩ := h
      rw [bind_eq_ok] at h
      obtain ⟨q, h2, _⟩ := h
      refine ⟨encTern_inv h1, (loop_reads (fun i v v' h => ?_) h2).1⟩
      rw [bind_eq_ok] at h
      obtain ⟨u, h3, h4⟩ := h
      have := accRow_inv h3
      have := updAt_inv h4
      omega
  refine ⟨?_, key.2, fun j hj => (key.1 j hj).2⟩
  have := (key.1 (n - 1) (by omega)).1
  omega

end

end Acs
