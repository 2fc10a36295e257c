import Verif.SpecGetTest
import Verif.SpecGet
import Verif.Lemmas.GetInv

/-! # Lemmas for the tests of the getters -/

set_option linter.unusedSectionVars false

namespace Acs

open Spec Finset

theorem places_congr {r c : Nat} {p q : Nat → Nat → Bool} (h : ∀ i j, i < r → j < c → p i j = q i j) :
    places r c p = places r c q := by
  unfold places
  congr 1
  refine filter_congr fun x hx => ?_
  rw [mem_product, mem_range, mem_range] at hx
  rw [h _ _ hx.1 hx.2]

theorem places_not (r c : Nat) (p : Nat → Nat → Bool) : places r c p + places r c (fun i j => !p i j) = r * c := by
  unfold places
  have := card_filter_add_card_filter_not (s := range r ×ˢ range c) (fun q => p q.1 q.2 = true)
  rw [card_product, card_range, card_range] at this
  rw [← this]
  congr 2
  ext q
  simp

theorem places_add {r c : Nat} {p q : Nat → Nat → Bool} (h : ∀ i j, i < r → j < c → (q i j = !p i j)) :
    places r c p + places r c q = r * c := by
  rw [places_congr (p := q) h]
  exact places_not r c p

/-- Positions outside a smaller block where nothing holds do not count. -/
theorem places_block {r c m n : Nat} {p : Nat → Nat → Bool} (hm : m ≤ r) (hn : n ≤ c)
    (h : ∀ i j, p i j = true → i < m ∧ j < n) : places r c p = places m n p := by
  unfold places
  congr 1
  ext q
  simp only [mem_filter, mem_product, mem_range]
  constructor
  · rintro ⟨_, h2⟩
    exact ⟨h _ _ h2, h2⟩
  · rintro ⟨h1, h2⟩
    exact ⟨⟨by omega, by omega⟩, h2⟩

theorem count_on {α : Type} [DecidableEq α] {A : Mat α} {r c : Nat} {p : Nat → Nat → Bool} {a b : α} (hab : a ≠ b)
    (h : Shows A r c fun i j => if p i j = true then a else b) :
    countOf A a = places r c p ∧ countOf A b + places r c p = r * c := by
  obtain ⟨h1, h2, h3⟩ := h
  unfold countOf
  rw [h1, h2]
  refine ⟨places_congr fun i j hi hj => ?_, ?_⟩
  · cases hp : p i j <;> simp [h3 i j hi hj, hp, hab.symm]
  · rw [add_comm]
    refine places_add fun i j hi hj => ?_
    cases hp : p i j <;> simp [h3 i j hi hj, hp, hab]

section
variable {K : Type} {c : Cfg K} {h : List Op}

theorem held_on (hm : twoState c.mode) (hv : ∀ i j v, lastWrite h i j = some v → LegalW c v) (i j : Nat) :
    (heldP c h i j = if litP c.mode h i j = true then 1 else 0) ∧
      heldM c h i j = if litM c.mode h i j = true then 1 else 0 := by
  have key : ∀ md, md = c.mode → (heldP c h i j = if litP md h i j = true then 1 else 0) ∧
      heldM c h i j = if litM md h i j = true then 1 else 0 := by
    intro md e
    rw [← e] at hm
    have hr : (rowOf c i).1 = i := by
      unfold rowOf
      rw [← e]
      cases md <;> first | rfl | exact hm.elim
    unfold heldP heldM litP litM
    rw [hr]
    cases hl : lastWrite h i j with
    | none => cases md <;> first | exact hm.elim | exact ⟨rfl, rfl⟩
    | some v =>
      have h1 := hv i j v hl
      simp only [encP, encM, ← e]
      unfold LegalW at h1
      rw [← e] at h1
      cases md <;> first | exact hm.elim | (rcases h1 with rfl | rfl | rfl <;> exact ⟨rfl, rfl⟩) |
        (rcases h1 with rfl | rfl <;> exact ⟨rfl, rfl⟩)
  exact key _ rfl

end

end Acs
