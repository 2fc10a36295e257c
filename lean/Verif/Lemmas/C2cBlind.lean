import Verif.Lemmas.DetXbar

/-! # With cycle-to-cycle variation the actual currents are overwritten before they are read -/

set_option linter.unusedSectionVars false

namespace Acs

section
variable {K : Type} [Field K] [LinearOrder K] [IsStrictOrderedRing K] [FloorRing K]
variable {E : Env K} {cfg : Cfg K} {m n : Nat}

/-- Two sets of currents that differ at most in the actual currents of cells outside `D`. -/
structure AlikeOn (D : Nat → Nat → Prop) (s t : Ia K) : Prop where
  pO : s.pO = t.pO
  mO : s.mO = t.mO
  pr : s.p.rows = t.p.rows
  pc : s.p.cols = t.p.cols
  mr : s.m.rows = t.m.rows
  mc : s.m.cols = t.m.cols
  p : ∀ r k, D r k → s.p.get r k = t.p.get r k
  m : ∀ r k, D r k → s.m.get r k = t.m.get r k

theorem AlikeOn.eq {s t : Ia K} (h : AlikeOn (fun _ _ => True) s t) : s = t := by
  obtain ⟨⟨a, b, f⟩, ⟨a', b', f'⟩, _, _⟩ := s
  obtain ⟨⟨c, d, g⟩, ⟨c', d', g'⟩, _, _⟩ := t
  obtain ⟨h1, h2, h3, h4, h5, h6, h7, h8⟩ := h
  dsimp only at h1 h2 h3 h4 h5 h6 h7 h8
  subst h1 h2 h3 h4 h5 h6
  obtain rfl : f = g := funext fun r => funext fun k => h7 r k trivial
  obtain rfl : f' = g' := funext fun r => funext fun k => h8 r k trivial
  rfl

theorem Rel.wr {w : Bool} {α : Type} {A B : Mat α} {i j : Nat} {a : α} (h1 : A.rows = B.rows)
    (h2 : A.cols = B.cols) : Rel w (fun A' B' => A'.rows = B'.rows ∧ A'.cols = B'.cols ∧
      ∀ r k, (r = i ∧ k = j) ∨ A.get r k = B.get r k → A'.get r k = B'.get r k)
      (A.wr i j a) (B.wr i j a) := by
  unfold Mat.wr
  rw [h1, h2]
  split
  · refine ⟨rfl, rfl, fun r k h => ?_⟩
    dsimp only
    split
    · rfl
    · next hn => exact h.resolve_left hn
  · exact Or.inr rfl

theorem Rel.eq {α : Type} {x y : C α} (h : Rel false Eq x y) : x = y := by
  cases x with
  | ok a =>
    cases y with
    | ok b => exact congrArg _ h
    | error _ => exact absurd h (by simp [Rel])
  | error e =>
    cases y with
    | ok b => exact absurd h (by simp [Rel])
    | error e' =>
      rcases h with h | h
      · exact absurd h (by simp)
      · rw [h]

theorem addC2C_blind {mp : Mapper K} {ia : Ia K}
    (ha : AlikeOn (fun r k => ¬(r < m ∧ k < n)) mp.core.ia ia) :
    addC2C E cfg mp m n = addC2C E cfg { mp with core := { mp.core with ia := ia } } m n := by
  unfold addC2C
  dsimp only
  refine congrArg (fun z => z >>= _) (Rel.eq ?_)
  refine Rel.mono (P := fun (s t : Ia K × Nat) => s.2 = t.2 ∧
      AlikeOn (fun r k => r < m ∨ ¬(r < m ∧ k < n)) s.1 t.1) ?_ fun s t ⟨h1, h2⟩ =>
      Prod.ext (AlikeOn.eq ?_) h1
  · refine Rel.loop (fun i (s t : Ia K × Nat) => s.2 = t.2 ∧
      AlikeOn (fun r k => r < i ∨ ¬(r < m ∧ k < n)) s.1 t.1) ?_ fun i s t hi ⟨h1, h2⟩ => ?_
    · exact ⟨rfl, ha.pO, ha.mO, ha.pr, ha.pc, ha.mr, ha.mc, fun r k h => ha.p r k (h.resolve_left (by omega)),
        fun r k h => ha.m r k (h.resolve_left (by omega))⟩
    · refine Rel.mono (P := fun (s t : Ia K × Nat) => s.2 = t.2 ∧
        AlikeOn (fun r k => r < i ∨ (r = i ∧ k < n) ∨ ¬(r < m ∧ k < n)) s.1 t.1) ?_
        fun s t ⟨h1, h2⟩ => ⟨h1, ?_⟩
      · refine Rel.loop (fun j (s t : Ia K × Nat) => s.2 = t.2 ∧
          AlikeOn (fun r k => r < i ∨ (r = i ∧ k < j) ∨ ¬(r < m ∧ k < n)) s.1 t.1) ?_
          fun j s t hj ⟨h1, h2⟩ => ?_
        · exact ⟨h1, h2.pO, h2.mO, h2.pr, h2.pc, h2.mr, h2.mc, fun r k h => h2.p r k (by omega),
            fun r k h => h2.m r k (by omega)⟩
        · refine Rel.bindEq (by rw [h2.pO]) fun a => Rel.bindEq rfl fun gp => ?_
          rw [h1]
          refine Rel.bindEq rfl fun x => Rel.bind (Rel.wr h2.pr h2.pc) fun P P' hP => ?_
          refine Rel.bindEq (by rw [h2.mO]) fun b => Rel.bindEq rfl fun gm => Rel.bindEq rfl fun z => ?_
          refine Rel.bind (Rel.wr h2.mr h2.mc) fun Q Q' hQ => ?_
          refine ⟨rfl, h2.pO, h2.mO, hP.1, hP.2.1, hQ.1, hQ.2.1, fun r k h => hP.2.2 r k ?_,
            fun r k h => hQ.2.2 r k ?_⟩
          · by_cases hrk : r = i ∧ k = j
            · exact Or.inl hrk
            · exact Or.inr (h2.p r k (by omega))
          · by_cases hrk : r = i ∧ k = j
            · exact Or.inl hrk
            · exact Or.inr (h2.m r k (by omega))
      · exact ⟨h2.pO, h2.mO, h2.pr, h2.pc, h2.mr, h2.mc, fun r k h => h2.p r k (by omega),
          fun r k h => h2.m r k (by omega)⟩
  · exact ⟨h2.pO, h2.mO, h2.pr, h2.pc, h2.mr, h2.mc, fun r k _ => h2.p r k (by omega),
          fun r k _ => h2.m r k (by omega)⟩

theorem xMvm_blind {x : Xbar K} {ia : Ia K} {res vec mat : Vec Int} {l : String}
    (hdo : cfg.digitalOnly = false) (hc : cfg.c2c = true)
    (ha : AlikeOn (fun r k => ¬(r < m ∧ k < n)) x.mapper.core.ia ia) :
    xMvm E cfg { x with mapper := { x.mapper with core := { x.mapper.core with ia := ia } } } res vec mat m n l
      = xMvm E cfg x res vec mat m n l := by
  unfold xMvm
  dsimp only
  have hdo' : ¬cfg.digitalOnly = true := by rw [hdo]; simp
  rw [if_neg hdo', if_neg hdo', if_pos hc, if_pos hc, ← addC2C_blind ha]

end

end Acs
