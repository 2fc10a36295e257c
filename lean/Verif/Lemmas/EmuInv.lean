import Verif.Model.Emu
import Verif.Spec
import Verif.Lemmas.WriteInv
import Verif.Lemmas.DMvmBin

/-!
# The multiplication of the emulation library
-/

namespace Acs

open Finset Spec

variable {S : Type} {res vec mat v v' : Vec Int} {m n : Int} {l : String} {w w' : Emu S}

theorem updAt_eq_ok {α : Type} {v w : Vec α} {i : Nat} {f : α → C α} :
    updAt v i f = .ok w ↔ i < v.size ∧ ∃ x, f (v.get i) = .ok x ∧
      (⟨v.size, fun k => if k = i then x else v.get k⟩ : Vec α) = w := by
  unfold updAt
  simp only [bind_eq_ok, Vec.rd_eq_ok]
  constructor
  · rintro ⟨a, ⟨h, rfl⟩, x, hx, hw⟩
    rw [Vec.wr_ok h, ok_inj] at hw
    exact ⟨h, x, hx, hw⟩
  · rintro ⟨h, x, hx, hw⟩
    exact ⟨_, ⟨h, rfl⟩, x, hx, by rw [Vec.wr_ok h, hw]⟩

theorem accG_addI_inv {T N : Nat} {term : Nat → Nat → C Int} {f : Nat → Nat → Int}
    (hf : ∀ t n x, t < T → n < N → term t n = .ok x → x = f t n) (h : accG addI T N term v = .ok v') :
    v' = v.over T fun t => v.get t + ∑ j ∈ range N, f t j := by
  unfold accG at h
  rw [loop_inv (fun t => v.over t fun t => v.get t + ∑ j ∈ range N, f t j) ?_ ?_ h]
  · refine Vec.ext' (by rfl) fun k => ?_
    simp [Vec.over]
  · intro t ht u hu
    unfold accRow at hu
    rw [loop_inv (fun c => (⟨v.size, fun k => if k < t then v.get k + ∑ j ∈ range N, f k j else
      if k = t then v.get k + ∑ j ∈ range c, f k j else v.get k⟩ : Vec Int)) ?_ ?_ hu]
    · refine Vec.ext' (by rfl) fun k => ?_
      simp only [Vec.over]
      rcases lt_trichotomy k t with h | h | h
      · rw [if_pos h, if_pos (by omega)]
      · rw [if_neg (by omega), if_pos h, if_pos (by omega)]
      · rw [if_neg (by omega), if_neg (by omega), if_neg (by omega)]
    · refine Vec.ext' (by rfl) fun k => ?_
      simp only [Vec.over, range_zero, sum_empty, add_zero]
      split
      · rfl
      · split <;> rfl
    · intro c hc y hy
      rw [bind_eq_ok] at hy
      obtain ⟨x, hx, hy⟩ := hy
      rw [updAt_eq_ok] at hy
      obtain ⟨_, z, hz, rfl⟩ := hy
      rw [addI_eq_ok] at hz
      obtain ⟨_, rfl⟩ := hz
      rw [hf t c x ht hc hx]
      refine Vec.ext' (by rfl) fun k => ?_
      dsimp only
      rcases lt_trichotomy k t with h | h | h
      · rw [if_neg (by omega), if_pos h, if_pos h]
      · subst h
        simp only [lt_irrefl, if_true, if_false, sum_range_succ]
        omega
      · rw [if_neg (by omega), if_neg (by omega), if_neg (by omega), if_neg (by omega), if_neg (by omega)]

theorem emuTerm_inv {i j : Nat} {x : Int} (hn : 0 ≤ n) (h : emuTerm n mat vec i j = .ok x) :
    x = entry mat n.toNat i j * vec.get j := by
  unfold emuTerm at h
  simp only [bind_eq_ok] at h
  obtain ⟨p, hp, k, hk, y, hy, a, ha, h⟩ := h
  rw [mulI_eq_ok] at hp h
  rw [addI_eq_ok] at hk
  rw [Vec.rd_eq_ok] at ha
  obtain ⟨_, rfl⟩ := hp
  obtain ⟨_, rfl⟩ := hk
  have h0 : 0 ≤ n * i + j := by positivity
  rw [if_neg (by omega), Vec.rd_eq_ok] at hy
  rw [← h.2, ← ha.2, ← hy.2]
  unfold entry
  lift n to ℕ using hn
  rw [show (((n : Int) * i + j).toNat) = n * i + j by omega]
  rfl

theorem emu_warn (w : Emu S) (h : w.mvmCb = none) : (if w.warnMvm then w else { w with
      out := w.out ++ ["Function pointer mvm_c_to_py not set. Emulate operation instead."]
      warnMvm := true } : Emu S).mvmCb = none := by
  split <;> exact h

/-- The products and partial sums `exe_mvm` forms. -/
theorem accG_emu {a b : Nat} (hres : a ≤ res.size) (hvec : b ≤ vec.size) (hmat : a * b ≤ mat.size)
    (hidx : a * b ≤ 2147483648)
    (hp : ∀ i j, i < a → j < b → InI32 (entry mat b i j * vec.get j))
    (hs : ∀ i k, i < a → k ≤ b → InI32 (res.get i + ∑ j ∈ range k, entry mat b i j * vec.get j)) :
    accG addI a b (emuTerm b mat vec) res =
      .ok (res.over a fun i => res.get i + prod (entry mat b) vec b i) := by
  refine accG_ok (fun i k => res.get i + ∑ j ∈ range k, entry mat b i j * vec.get j) hres (fun i _ => by simp) ?_
  intro i j hi hj
  have hlt : b * i + j < a * b := by
    have : b * (i + 1) ≤ b * a := Nat.mul_le_mul_left _ hi
    rw [Nat.mul_succ] at this
    rw [Nat.mul_comm a b]; omega
  have e : emuTerm b mat vec i j = .ok (entry mat b i j * vec.get j) := by
    unfold emuTerm
    rw [show mulI (b : Int) i = .ok ((b * i : Nat) : Int) by
        have h1 : b * i ≤ 2147483647 := by omega
        rw [mulI_eq_ok, ← Nat.cast_mul]; exact ⟨⟨by omega, by omega⟩, rfl⟩, ok_bind,
      show addI ((b * i : Nat) : Int) j = .ok ((b * i + j : Nat) : Int) by
        have h1 : b * i + j ≤ 2147483647 := by omega
        rw [addI_eq_ok, ← Nat.cast_add]; exact ⟨⟨by omega, by omega⟩, rfl⟩, ok_bind, if_neg (by omega), Int.toNat_natCast,
      Vec.rd_ok (by omega), ok_bind, Vec.rd_ok (by omega), ok_bind]
    exact mulI_eq_ok.2 ⟨hp i j hi hj, rfl⟩
  rw [e, ok_bind]
  refine addI_eq_ok.2 ⟨?_, ?_⟩
  · have := hs i (j + 1) hi hj
    rw [sum_range_succ, ← add_assoc] at this
    exact this
  · rw [sum_range_succ, add_assoc]

theorem adds_unique {r r' res : Vec Int} {W W' : Nat → Nat → Int} {x : Vec Int} {a b : Nat}
    (h : Adds r res W x a b) (h' : Adds r' res W' x a b) (e : ∀ i j, i < a → j < b → W i j = W' i j) :
    r = r' := by
  refine Vec.ext' (h.size.trans h'.size.symm) fun k => ?_
  rcases Nat.lt_or_ge k a with hk | hk
  · rw [h.head k hk, h'.head k hk]
    unfold prod
    rw [sum_congr rfl fun j hj => by rw [e k j hk (mem_range.1 hj)]]
  · rw [h.tail k hk, h'.tail k hk]

end Acs
