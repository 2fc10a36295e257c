import Verif.Lemmas.Related
import Verif.Props.Reading
import Verif.Props.Flip

/-!
# C116: mappings that do the same
-/

set_option linter.unusedSectionVars false

namespace Acs.Props

open Finset Spec

section
variable {K : Type} [Field K] [LinearOrder K] [IsStrictOrderedRing K] [FloorRing K]
variable {E : Env K} {cfg : Cfg K} {mat mat' vec vec' res : Vec Int} {m n : Nat} {l : String}
variable {x y : Xbar K} {h h' : List Op} {lo hi : K} {md md' : Mode} {s : Signs}

theorem related_cfg (hs : related md md' = some s) (hm : cfg.mode = md) (hok : CfgOk cfg) (hid : Ideal cfg) :
    CfgOk (withMode cfg md') ∧ Ideal (withMode cfg md') ∧ peak (withMode cfg md') n = peak cfg n ∧
      (keepsRowSums md' → keepsRowSums md) ∧ md ≠ .iUintWOffs ∧ md' ≠ .iUintWOffs ∧ md ≠ .iOffsWDiff ∧ md' ≠ .iOffsWDiff := by
  unfold CfgOk at hok
  unfold related at hs
  split at hs <;> cases hs <;> simp only [hm] at hok
  all_goals
    refine ⟨hok, ⟨hid.1, hid.2, hid.3, hid.4, hid.5, fun h => hid.6 (by rw [hm]; exact h), hid.7, fun h => hid.8 (by rw [hm]; exact h)⟩, ?_, ?_, ?_, ?_, ?_, ?_⟩
    · unfold peak; rw [hm]; rfl
    · exact id
    · decide
    · decide
    · decide
    · decide

/-- C116.  Two related mappings on equal crossbars add the same numbers up to their signs, in exact arithmetic, in any states
that hold the same matrix up to its sign, through any real converter, also if currents leave its range. -/
theorem C116_related (hs : related md md' = some s) (hm : cfg.mode = md) (hE : ExactArith E) (hok : CfgOk cfg) (hid : Ideal cfg)
    (hr : Runs E cfg h x) (hr' : Runs E (withMode cfg md') h' y) (hl : Legal cfg (lastWrite h) m n)
    (hl' : Legal (withMode cfg md') (lastWrite h') m n) (hwid : keepsRowSums cfg.mode → WidthIs n h ∧ WidthIs n h')
    (hd : Accepted cfg m n) (hv : n ≤ vec.size) (hv' : n ≤ vec'.size) (hres : m ≤ res.size) (hx : LegalVec cfg vec n)
    (hx' : LegalVec (withMode cfg md') vec' n) (hA : AdcOk cfg l lo hi) (hroom : ReadRoom cfg lo hi (stored h) res vec m n)
    (hp : Signed s (stored h) (stored h') vec vec' m n) :
    ∃ x' y' r r', xMvm E cfg x res vec mat m n l = .ok (x', r) ∧
      xMvm E (withMode cfg md') y res vec' mat' m n l = .ok (y', r') ∧
      ∀ i, r'.get i - res.get i = s.r * (r.get i - res.get i) := by
  obtain ⟨g1, g2, g3, g4, g5, g6, g7, g8⟩ := related_cfg (n := n) hs hm hok hid
  have hW : ∀ i, i < m → ∀ j, j < n → LegalW cfg (stored h i j) := fun i hi j hj => by
    obtain ⟨v, hv, hv'⟩ := hl i j hi hj
    rw [stored, hv]
    exact hv'
  obtain ⟨x', r, h1, h2⟩ := C91_reads (mat := mat) hE hok hid (fun h => (g7 (hm.symm.trans h)).elim) hr hl
    (fun hk => (hwid hk).1) hd hv hres hx hA hroom
  obtain ⟨y', r', h3, h4⟩ := C91_reads (cfg := withMode cfg md') (mat := mat') (l := l) (lo := lo) (hi := hi) (res := res) hE g1 g2
    (fun h => (g8 h).elim) hr' hl' (fun hk => (hwid (by rw [hm]; exact g4 hk)).2) hd hv' hres hx'
    ⟨hA.1, hA.2, hA.3, hA.4, hA.5⟩
    ⟨fun i hi' => by rw [g3, conv_related hs hm hp (hW i hi') hi']; exact hroom.parts i hi', fun h => (g6 h).elim⟩
  refine ⟨x', y', r, r', h1, h3, fun i => ?_⟩
  rcases lt_or_ge i m with hi' | hi'
  · rw [h2.head i hi', h4.head i hi', row_related hs hm hp (hW i hi') hi', add_sub_cancel_left, add_sub_cancel_left]
  · rw [h2.tail i hi', h4.tail i hi', sub_self, mul_zero]

end

/-- The hypotheses for `BNN_III` and `BNN_IV`, with a converter of two bits: the sign of the matrix changes the sign of the
result. -/
example : ∃ x y x' y' r r', Runs Ex.env (Ex'.twoBit .bnn3) [.write (Ex'.signPair 1 1) 1 2] x ∧
    Runs Ex.env (withMode (Ex'.twoBit .bnn3) .bnn4) [.write (Ex'.signPair (-1) (-1)) 1 2] y ∧
    xMvm Ex.env (Ex'.twoBit .bnn3) x Ex.res (Ex'.signPair 1 1) (Ex'.signPair 1 1) 1 2 "" = .ok (x', r) ∧
    xMvm Ex.env (withMode (Ex'.twoBit .bnn3) .bnn4) y Ex.res (Ex'.signPair 1 1) (Ex'.signPair (-1) (-1)) 1 2 "" = .ok (y', r') ∧
    ∀ i, r'.get i - Ex.res.get i = -1 * (r.get i - Ex.res.get i) := by
  obtain ⟨x, hr, -⟩ := Ex.wrote (E := Ex.env) (c := Ex'.twoBit .bnn3) (mat := Ex'.signPair 1 1) (m := 1) (n := 2)
    (fun _ => true) (by decide +kernel)
  obtain ⟨y, hr', -⟩ := Ex.wrote (E := Ex.env) (c := withMode (Ex'.twoBit .bnn3) .bnn4) (mat := Ex'.signPair (-1) (-1)) (m := 1) (n := 2)
    (fun _ => true) (by decide +kernel)
  obtain ⟨x', y', r, r', h⟩ := C116_related (cfg := Ex'.twoBit .bnn3) (md' := .bnn4) (mat := Ex'.signPair 1 1)
    (mat' := Ex'.signPair (-1) (-1)) (l := "") (res := Ex.res) rfl rfl Ex.env_exact (Ex'.twoBit_ok _) (Ex'.twoBit_ideal _) hr hr'
    (Ex'.signPair_legal (Or.inl rfl) (Or.inl rfl)) (Ex'.signPair_legal (Or.inr rfl) (Or.inr rfl)) (fun h => h.elim)
    ⟨show 1 ≤ 2 by decide, show 2 ≤ 4 by decide, by decide⟩ (le_refl 2) (le_refl 2) (by decide)
    (Ex'.signPair_all (Or.inl rfl) (Or.inl rfl)) (Ex'.signPair_all (Or.inl rfl) (Or.inl rfl)) (Ex'.twoBit_adc _)
    ⟨Ex'.zero_only (by decide +kernel), fun h => by cases h⟩
    ⟨fun i j hi hj => by
      obtain rfl : i = 0 := by omega
      obtain rfl | rfl : j = 0 ∨ j = 1 := by omega
      · rfl
      · rfl, fun j _ => (one_mul _).symm⟩
  exact ⟨x, y, x', y', r, r', hr, hr', h⟩

/-- And for `BNN_I` and `BNN_II`, where the signs of both operands change. -/
example : ∃ x y x' y' r r', Runs Ex.env (Ex'.twoBit .bnn1) [.write (Ex'.signPair 1 1) 1 2] x ∧
    Runs Ex.env (withMode (Ex'.twoBit .bnn1) .bnn2) [.write (Ex'.signPair (-1) (-1)) 1 2] y ∧
    xMvm Ex.env (Ex'.twoBit .bnn1) x Ex.res (Ex'.signPair 1 1) (Ex'.signPair 1 1) 1 2 "" = .ok (x', r) ∧
    xMvm Ex.env (withMode (Ex'.twoBit .bnn1) .bnn2) y Ex.res (Ex'.signPair (-1) (-1)) (Ex'.signPair (-1) (-1)) 1 2 "" = .ok (y', r') ∧
    ∀ i, r'.get i - Ex.res.get i = 1 * (r.get i - Ex.res.get i) := by
  obtain ⟨x, hr, -⟩ := Ex.wrote (E := Ex.env) (c := Ex'.twoBit .bnn1) (mat := Ex'.signPair 1 1) (m := 1) (n := 2)
    (fun _ => true) (by decide +kernel)
  obtain ⟨y, hr', -⟩ := Ex.wrote (E := Ex.env) (c := withMode (Ex'.twoBit .bnn1) .bnn2) (mat := Ex'.signPair (-1) (-1)) (m := 1) (n := 2)
    (fun _ => true) (by decide +kernel)
  have w1 : ∀ {M : Vec Int}, WidthIs 2 [.write M 1 2] := fun op hop => by obtain rfl := List.mem_singleton.1 hop; rfl
  obtain ⟨x', y', r, r', h⟩ := C116_related (cfg := Ex'.twoBit .bnn1) (md' := .bnn2) (mat := Ex'.signPair 1 1)
    (mat' := Ex'.signPair (-1) (-1)) (l := "") (res := Ex.res) rfl rfl Ex.env_exact (Ex'.twoBit_ok _) (Ex'.twoBit_ideal _) hr hr'
    (Ex'.signPair_legal (Or.inl rfl) (Or.inl rfl)) (Ex'.signPair_legal (Or.inr rfl) (Or.inr rfl)) (fun _ => ⟨w1, w1⟩)
    ⟨show 1 ≤ 2 by decide, show 2 ≤ 4 by decide, by decide⟩ (le_refl 2) (le_refl 2) (by decide)
    (Ex'.signPair_all (Or.inl rfl) (Or.inl rfl)) (Ex'.signPair_all (Or.inr rfl) (Or.inr rfl)) (Ex'.twoBit_adc _)
    ⟨Ex'.zero_only (by decide +kernel), fun h => by cases h⟩
    ⟨fun i j hi hj => by
      obtain rfl : i = 0 := by omega
      obtain rfl | rfl : j = 0 ∨ j = 1 := by omega
      · rfl
      · rfl, fun j hj => by
      obtain rfl | rfl : j = 0 ∨ j = 1 := by omega
      · rfl
      · rfl⟩
  exact ⟨x, y, x', y', r, r', hr, hr', h⟩

end Acs.Props
