import Verif.Lemmas.BinMod
import Verif.Props.IntRange

/-! # Operands outside the alphabet of a binary or ternary mapping (C100) -/

namespace Acs.Props

open Spec Finset

section
variable {K : Type} [Field K] [LinearOrder K] [IsStrictOrderedRing K] [FloorRing K]
variable {E : Env K} {cfg : Cfg K} {x x' : Xbar K} {h : List Op} {mat res vec r : Vec Int} {m n : Nat} {l : String}
  {W : Nat → Nat → Int}

/-- C100.  Whatever the weights and inputs, a digital binary or ternary multiplication that returns has added the products of
the operands the mapping sees (all mappings but `TNN_V`). -/
theorem C100_computed (hi : cfg.mode.isInt = false) (h5 : cfg.mode ≠ .tnn5) (hok : CfgOk cfg)
    (hdo : cfg.digitalOnly = true) (hr : Runs E cfg h x)
    (hw : ∀ i j, i < m → j < n → lastWrite h i j = some (W i j)) (hs : keepsRowSums cfg.mode → WidthIs n h)
    (hx : xMvm E cfg x res vec mat m n l = .ok (x', r)) :
    r.size = res.size ∧ (∀ i, m ≤ i → r.get i = res.get i) ∧ ∀ i, i < m →
      r.get i = res.get i + ∑ j ∈ range n, seenW cfg.mode (W i j) * seenX cfg.mode (vec.get j) :=
  (xMvm_seen hi hok hdo hr hw hs hx).1 h5

/-- C100.  In `TNN_V` the last subtraction is carried out in 64 bits and stored in 32. -/
theorem C100_computed_tnn5 (h5 : cfg.mode = .tnn5) (hok : CfgOk cfg) (hdo : cfg.digitalOnly = true) (hr : Runs E cfg h x)
    (hw : ∀ i j, i < m → j < n → lastWrite h i j = some (W i j))
    (hx : xMvm E cfg x res vec mat m n l = .ok (x', r)) :
    r.size = res.size ∧ (∀ i, m ≤ i → r.get i = res.get i) ∧ ∀ i, i < m → InI32 (r.get i) ∧
      r.get i ≡ res.get i + ∑ j ∈ range n, seenW .tnn5 (W i j) * seenX .tnn5 (vec.get j) [ZMOD 4294967296] := by
  have k := (xMvm_seen (by rw [h5]; rfl) hok hdo hr hw (fun e => by rw [h5] at e; exact e.elim) hx).2 h5
  rw [h5] at k
  exact k

theorem tdiv_odd (a : Int) : 1 - 2 * (1 - a).tdiv 2 = a ↔ a % 2 = 1 := by
  rcases le_total 0 (1 - a) with k | k
  · rw [Int.tdiv_eq_ediv_of_nonneg k]
    omega
  · rw [← neg_sub a 1, Int.neg_tdiv, Int.tdiv_eq_ediv_of_nonneg (by omega)]
    omega

/-- C100.  A mapping that does not look at its weights sees the right one exactly for these. -/
theorem C100_weights {md : Mode} (hi : md.isInt = false) (hc : ¬checksW md) (w : Int) : seenW md w = w ↔ trueW md w := by
  cases md <;> simp only [Mode.isInt, Mode.family, checksW, not_true_eq_false] at hi hc <;>
    first | (cases hi; done) | skip
  all_goals
    unfold seenW trueW
    dsimp only
    first | exact tdiv_odd _ | omega

/-- C100.  A mapping that does not look at its inputs sees the right one exactly for these. -/
theorem C100_inputs {md : Mode} (hi : md.isInt = false) (hc : ¬checksX md) (z : Int) : seenX md z = z ↔ trueX md z := by
  cases md <;> simp only [Mode.isInt, Mode.family, checksX, not_true_eq_false] at hi hc <;>
    first | (cases hi; done) | skip
  all_goals
    unfold seenX trueX
    dsimp only
    first | exact tdiv_odd _ | omega

/-- C100.  A mapping that looks at its weights holds no others. -/
theorem C100_checked {md : Mode} (hmd : cfg.mode = md) (hc : checksW md) (hr : Runs E cfg h x) {i j : Nat} {w : Int}
    (hw : lastWrite h i j = some w) : trueW md w := by
  have k := runs_legal (by rw [hmd]; exact hc) hr i j w hw
  unfold LegalW at k
  rw [hmd] at k
  cases md <;> first | exact hc.elim | exact k

/-- C100.  So the product is exact for operands that are larger than the alphabet. -/
theorem C100_exact (hi : cfg.mode.isInt = false) (hok : CfgOk cfg) (hdo : cfg.digitalOnly = true) (hr : Runs E cfg h x)
    (hw : ∀ i j, i < m → j < n → lastWrite h i j = some (W i j)) (hs : keepsRowSums cfg.mode → WidthIs n h)
    (hx : xMvm E cfg x res vec mat m n l = .ok (x', r)) {i : Nat} (him : i < m)
    (hW : ¬checksW cfg.mode → ∀ j, j < n → trueW cfg.mode (W i j))
    (hX : ¬checksX cfg.mode → ∀ j, j < n → trueX cfg.mode (vec.get j))
    (h5 : cfg.mode = .tnn5 → InI32 (res.get i + ∑ j ∈ range n, W i j * vec.get j)) :
    r.get i = res.get i + ∑ j ∈ range n, W i j * vec.get j := by
  have ew : ∀ j, j < n → seenW cfg.mode (W i j) = W i j := fun j hj => by
    by_cases hc : checksW cfg.mode
    · cases hm : cfg.mode <;> rw [hm] at hc <;> first | rfl | exact hc.elim
    · exact (C100_weights hi hc _).2 (hW hc j hj)
  have ex : ∀ j, j < n → seenX cfg.mode (vec.get j) = vec.get j := fun j hj => by
    by_cases hc : checksX cfg.mode
    · cases hm : cfg.mode <;> rw [hm] at hc <;> first | rfl | exact hc.elim
    · exact (C100_inputs hi hc _).2 (hX hc j hj)
  have e : ∑ j ∈ range n, seenW cfg.mode (W i j) * seenX cfg.mode (vec.get j) = ∑ j ∈ range n, W i j * vec.get j :=
    sum_congr rfl fun j hj => by rw [ew j (mem_range.1 hj), ex j (mem_range.1 hj)]
  by_cases hm : cfg.mode = .tnn5
  · obtain ⟨k1, k2⟩ := (C100_computed_tnn5 hm hok hdo hr hw hx).2.2 i him
    rw [hm] at e
    rw [e] at k2
    have k3 := h5 hm
    unfold InI32 at k1 k3
    unfold Int.ModEq at k2
    omega
  · rw [(C100_computed hi hm hok hdo hr hw hs hx).2.2 i him, e]

end

/-- `BNN_III` sees 3, 4 and -6 as 3, 3 and -7: with inputs 1, -1, 1 the call adds `3 - 3 - 7`. -/
example : ∃ x x' r, Runs Ex.env (Ex.cfg .bnn3) [.write (Vec.ofList [3, 4, -6]) 1 3] x ∧
    xMvm Ex.env (Ex.cfg .bnn3) x (Vec.ofList [5]) (Vec.ofList [1, -1, 1]) (Vec.ofList [3, 4, -6]) 1 3 "" = .ok (x', r) ∧
    r.get 0 = -2 ∧ seenW .bnn3 4 = 3 ∧ seenW .bnn3 (-6) = -7 ∧ trueW .bnn3 3 ∧ CfgOk (Ex.cfg .bnn3) ∧
    (Ex.cfg .bnn3).digitalOnly = true :=
  ⟨_, _, _, .write (.init (rng := 0) (hists := []) rfl) rfl, rfl, by decide, by decide, by decide,
    by show (3 : Int) % 2 = 1; decide, Ex.cfg_ok _, rfl⟩

/-- `TNN_III` sees the inputs 2 and 3 as 2 and -1: with weights 1, -1 the call adds `2 + 1`. -/
example : ∃ x x' r, Runs Ex.env (Ex.cfg .tnn3) [.write (Vec.ofList [1, -1]) 1 2] x ∧
    xMvm Ex.env (Ex.cfg .tnn3) x (Vec.ofList [5]) (Vec.ofList [2, 3]) (Vec.ofList [1, -1]) 1 2 "" = .ok (x', r) ∧
    r.get 0 = 8 ∧ seenX .tnn3 3 = -1 ∧ trueX .tnn3 2 :=
  ⟨_, _, _, .write (.init (rng := 0) (hists := []) rfl) rfl, rfl, by decide, by decide,
    by show (-1 : Int) ≤ 2 ∧ (2 : Int) ≤ 2; decide⟩

/-- `TNN_V` sees the weights 2 and 3 as 2 and -1. -/
example : ∃ x x' r, Runs Ex.env (Ex.cfg .tnn5) [.write (Vec.ofList [2, 3]) 1 2] x ∧
    xMvm Ex.env (Ex.cfg .tnn5) x (Vec.ofList [5]) (Vec.ofList [1, 1]) (Vec.ofList [2, 3]) 1 2 "" = .ok (x', r) ∧
    r.get 0 = 6 ∧ seenW .tnn5 3 = -1 ∧ trueW .tnn5 2 ∧ CfgOk (Ex.cfg .tnn5) :=
  ⟨_, _, _, .write (.init (rng := 0) (hists := []) rfl) rfl, rfl, by decide, by decide,
    by show (-1 : Int) ≤ 2 ∧ (2 : Int) ≤ 2; decide, Ex.cfg_ok _⟩

end Acs.Props
