import Verif.Lemmas.Mirror
import Verif.Lemmas.Widen
import Verif.SpecBlank

/-! # Rows of zeros -/

set_option linter.unusedSectionVars false

namespace Acs

open Finset Spec

section
variable {K : Type} [Field K] [LinearOrder K] [IsStrictOrderedRing K] [FloorRing K]
variable {cfg : Cfg K} {x : Vec Int} {n i : Nat} {l : String} {lo hi : K} {W : Nat → Nat → Int}

/-- No current flows. -/
theorem conversions_blank (hm : balanced cfg.mode) (h : BlankRow W n i) : ∀ c ∈ conversions cfg W x n i, c.1 = 0 := by
  have e : conversions cfg W x n i = (conversions cfg W x n i).map fun c => (-c.1, c.2) := by
    conv_lhs => rw [conversions_by]
    conv_rhs => rw [conversions_by]
    exact convBy_mirrored hm fun F hF => by
      rw [← sum_neg_distrib]
      exact sum_congr rfl fun j hj => by
        rw [h j (mem_range.1 hj)]
        simpa using hF 0 (x.get j)
  intro c hc
  obtain ⟨t, ht, rfl⟩ := List.getElem_of_mem hc
  have e2 := congrArg (fun L : List (K × K) => L[t]?) e
  simp only [List.getElem?_map, List.getElem?_eq_getElem ht, Option.map_some, Option.some.injEq] at e2
  have e3 := congrArg Prod.fst e2
  simp only at e3
  linarith

theorem rowResult_blank (hm : balanced cfg.mode) (hA : AdcOk cfg l lo hi) (hz : HasZero cfg lo hi) (h : BlankRow W n i) :
    rowResult cfg lo hi W x n i = 0 := by
  have e : (conversions cfg W x n i).map (reading cfg lo hi)
      = ((conversions cfg W x n i).map (reading cfg lo hi)).map Neg.neg := by
    rw [List.map_map]
    refine List.map_congr_left fun c hc => ?_
    have h0 : reading cfg lo hi c = 0 := by
      rw [show c = (0, c.2) from Prod.ext (conversions_blank hm h c hc) rfl]
      exact reading_hasZero hA hz _
    rw [Function.comp_apply, h0, neg_zero]
  have ew : ∑ j ∈ range n, W i j = 0 := sum_eq_zero fun j hj => h j (mem_range.1 hj)
  have hg : ∀ t, ((conversions cfg W x n i).map (reading cfg lo hi)).getD t 0 = 0 := fun t => by
    have := getD_neg ((conversions cfg W x n i).map (reading cfg lo hi)) t
    rw [← e] at this
    omega
  have hs : ∀ L : List Int, L = L.map Neg.neg → L.sum = 0 := fun L hL => by
    have := sum_neg_list L
    rw [← hL] at this
    omega
  have h1 := hs _ e
  have h2 := fun t => hs _ ((congrArg (List.take t) e).trans (List.map_take).symm)
  have h3 := fun t => hs _ ((congrArg (List.drop t) e).trans (List.map_drop).symm)
  unfold rowResult
  rw [ew]
  cases hc : cfg.mode <;> simp only [hc, balanced] at hm <;> simp only [hg, h1, h2, h3] <;> ring

end

end Acs
