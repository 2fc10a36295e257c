import Verif.Lemmas.Odd
import Verif.Lemmas.Columns
import Verif.SpecMirror

/-! # Matrices of the opposite sign -/

set_option linter.unusedSectionVars false

namespace Acs

open Finset Spec

section
variable {K : Type} [Field K] [LinearOrder K] [IsStrictOrderedRing K] [FloorRing K]
variable {cfg : Cfg K} {x : Vec Int} {m n i : Nat} {l : String} {lo hi : K} {W W' : Nat → Nat → Int}

/-- The difference of the two cells. -/
def cellDiff (cfg : Cfg K) (r s : Nat) (w : Int) : K := nominal cfg r (encP cfg w s) - nominal cfg r (encM cfg w s)

theorem cellDiff_neg (hm : balanced cfg.mode) (r s : Nat) (w : Int) : cellDiff cfg r s (-w) = -cellDiff cfg r s w := by
  have e : encP cfg (-w) s = encM cfg w s ∧ encM cfg (-w) s = encP cfg w s := by
    have b1 : -w = 1 ↔ w = -1 := by omega
    have b2 : -w = -1 ↔ w = 1 := by omega
    unfold encP encM
    rcases lt_trichotomy w 0 with h | rfl | h
    · have h1 : 0 ≤ -w := by omega
      have h2 : ¬0 ≤ w := by omega
      cases hc : cfg.mode <;> simp only [hc, balanced] at hm <;>
        simp only [h1, h2, b1, b2, if_true, if_false, and_self]
    · cases hc : cfg.mode <;> simp only [hc, balanced] at hm <;> simp [bits]
    · have h1 : ¬0 ≤ -w := by omega
      have h2 : 0 ≤ w := by omega
      cases hc : cfg.mode <;> simp only [hc, balanced] at hm <;>
        simp only [h1, h2, b1, b2, if_true, if_false, neg_neg, and_self]
  unfold cellDiff
  rw [e.1, e.2, neg_sub]

theorem sum_mirrored (h : Mirrored W W' m n) (hi : i < m) (F : Int → Int → K) (hF : ∀ w y, F (-w) y = -F w y) :
    ∑ j ∈ range n, F (W' i j) (x.get j) = -∑ j ∈ range n, F (W i j) (x.get j) := by
  rw [← sum_neg_distrib]
  exact sum_congr rfl fun j hj => by rw [h i j hi (mem_range.1 hj), hF]

theorem convBy_mirrored (hm : balanced cfg.mode) {G G' : (Int → Int → K) → K} {t : Int}
    (hG : ∀ F : Int → Int → K, (∀ w y, F (-w) y = -F w y) → G' F = -G F) :
    convBy cfg G' n i t = (convBy cfg G n i t).map fun c => (-c.1, c.2) := by
  have e : ∀ s (v : Int → Int), G' (fun w y => (nominal cfg (i * cfg.split.length + s) (encP cfg w s)
        - nominal cfg (i * cfg.split.length + s) (encM cfg w s)) * (v y : K))
      = -G fun w y => (nominal cfg (i * cfg.split.length + s) (encP cfg w s)
        - nominal cfg (i * cfg.split.length + s) (encM cfg w s)) * (v y : K) := fun s v => hG _ fun w y => by
    have := cellDiff_neg hm (i * cfg.split.length + s) s w
    unfold cellDiff at this
    rw [this, neg_mul]
  unfold convBy
  cases hc : cfg.mode <;> simp only [hc, balanced] at hm <;>
    simp only [List.map_append, List.map_flatMap, List.map_map, List.map_cons, List.map_nil, Function.comp_def, hc]
  case bnn1 => rw [e 0]
  case bnn2 => rw [e 0]
  case bnn6 => rw [e 0, e 0, neg_sub, sub_neg_eq_add, neg_add_eq_sub]
  case tnn1 => rw [e 0, e 0, neg_sub, sub_neg_eq_add, neg_add_eq_sub]
  case tnn2 => rw [e 0, e 0]
  case tnn3 => rw [e 0, e 0]
  all_goals simp only [e]

theorem conversions_mirrored (hm : balanced cfg.mode) (h : Mirrored W W' m n) (hi : i < m) :
    conversions cfg W' x n i = (conversions cfg W x n i).map fun c => (-c.1, c.2) := by
  rw [conversions_by, conversions_by]
  exact convBy_mirrored hm fun F hF => sum_mirrored h hi F hF

theorem getD_neg (d : List Int) (t : Nat) : (d.map Neg.neg).getD t 0 = -d.getD t 0 := by
  rw [List.getD_eq_getElem?_getD, List.getD_eq_getElem?_getD, List.getElem?_map]
  cases d[t]? <;> rfl

theorem sum_neg_list (d : List Int) : (d.map Neg.neg).sum = -d.sum := by
  induction d with
  | nil => rfl
  | cons a d ih => rw [List.map_cons, List.sum_cons, List.sum_cons, ih, neg_add]

theorem rowResult_mirrored (hm : balanced cfg.mode) (hA : AdcOk cfg l lo hi) (hc : Centred cfg lo hi)
    (h : Mirrored W W' m n) (hi' : i < m) (hh : ∀ c ∈ conversions cfg W x n i, ¬Halfway cfg lo hi c.1) :
    rowResult cfg lo hi W' x n i = -rowResult cfg lo hi W x n i := by
  have e : (conversions cfg W' x n i).map (reading cfg lo hi)
      = ((conversions cfg W x n i).map (reading cfg lo hi)).map Neg.neg := by
    rw [conversions_mirrored hm h hi', List.map_map, List.map_map]
    exact List.map_congr_left fun c hc' => reading_opp hA hc (hh c hc')
  have ew : ∑ j ∈ range n, W' i j = -∑ j ∈ range n, W i j := by
    rw [← sum_neg_distrib]
    exact sum_congr rfl fun j hj => h i j hi' (mem_range.1 hj)
  unfold rowResult
  rw [e, ew]
  cases hc : cfg.mode <;> simp only [hc, balanced] at hm <;>
    simp only [getD_neg, sum_neg_list, ← List.map_take, ← List.map_drop] <;> ring

end

end Acs
