import Verif.Lemmas.FlIntIeee

/-! # Rounding to integers absorbs the errors of the integer mappings -/

namespace Acs

open Finset Spec

variable {K : Type} [Field K] [LinearOrder K] [IsStrictOrderedRing K] [FloorRing K]
variable {cfg : Cfg K} {lo hi ε A : K} {q : Prec K} {rg : String → K × K} {h : List Op}
variable {W : Nat → Nat → Int} {vec res r : Vec Int} {m n : Nat}

theorem intError_absorbed (hb : IntAbsorbed cfg lo hi ε q A W vec m n) {i : Nat} (hi' : i < m) :
    intError cfg lo hi ε q A W vec n i = 0 := by
  unfold IntAbsorbed at hb
  unfold intError
  dsimp only
  split_ifs at hb ⊢ with hv
  · unfold absorb
    rw [if_pos (hb i hi')]
  · refine List.sum_eq_zero fun z hz => ?_
    obtain ⟨c, hc, rfl⟩ := List.mem_map.1 hz
    have hl := hb.2 i hi' c hc
    have ha := hb.1
    unfold stepError
    split
    · exact absurd ‹_› hv
    · exact absurd ‹_› hv
    · exact absurd ‹_› ha
    · unfold absorb
      rw [if_pos hl]

theorem addsUpTo_zero {e : Nat → K} (ha : AddsUpTo e r res W vec m n) (he : ∀ i, i < m → e i = 0) :
    Adds r res W vec m n := by
  refine ⟨ha.size, fun i hi => ?_, ha.tail⟩
  have := ha.head i hi
  rw [he i hi] at this
  have := sub_eq_zero.1 (abs_nonpos_iff.1 this)
  exact_mod_cast this

theorem answersBy_intAbsorbed {ops : List Op} {rs : List (Vec Int)}
    (ha : AnswersBy (IntWithin cfg rg ε q A) h ops rs) (hb : AllIntAbsorbed cfg rg ε q A h ops) :
    Answers h ops rs := by
  induction ha with
  | nil => exact .nil
  | write _ ih => exact .write (ih hb)
  | mvm a _ ih => exact .mvm (addsUpTo_zero a fun i hi => intError_absorbed hb.1 hi) (ih hb.2)

/-- Exact arithmetic has the parameters zero. -/
theorem intScale_exact {E : Env K} (hE : ExactArith E) (hw : cfg.wBit ≤ 24) (hne : cfg.hrs ≠ cfg.lrs)
    (hs : ∀ s ∈ cfg.split, 1 ≤ s) : Rounds E (⟨0, 0, 0⟩ : Prec K) ∧ IntScale E cfg ⟨0, 0, 0⟩ := by
  have hd := sub_ne_zero.2 hne.symm
  have top : ∀ s, s < cfg.split.length → (0 : K) < sliceTop cfg s := fun s h => by
    have := hs _ (List.getElem_mem h)
    unfold sliceTop
    rw [List.getD_eq_getElem?_getD, List.getElem?_eq_getElem h]
    simp only [Option.getD_some]
    have : (2 : K) ≤ 2 ^ cfg.split[s] := by
      calc (2 : K) = 2 ^ 1 := (pow_one _).symm
        _ ≤ _ := pow_le_pow_right₀ (by norm_num) this
    linarith
  have est : ∀ s, stateStep E cfg s = (cfg.lrs - cfg.hrs) / sliceTop cfg s := fun s => by
    unfold stateStep Env.fsub
    rw [hE.f32, hE.f32]
  refine ⟨⟨le_rfl, fun x => by rw [hE.f32]; simp, fun k _ => hE.f32 _⟩,
    ⟨zero_le_one, hw, fun s h => ?_, fun s h => ?_, fun s h k _ sg hsg => ?_, ?_, ?_⟩⟩
  · rw [est]
    exact div_ne_zero hd (top s h).ne'
  · rw [est, div_mul_cancel₀ _ (top s h).ne']
    simp
  · rw [est, hE.f32, hE.f64]
    have ht := (top s h).ne'
    have : (2 : K) ^ k / (sg * ((cfg.lrs - cfg.hrs) / sliceTop cfg s)) * (cfg.lrs - cfg.hrs) - sg * (2 ^ k * sliceTop cfg s) = 0 := by
      rcases hsg with rfl | rfl <;> field_simp <;> ring
    rw [this]
    simp
  · unfold Env.fsub
    rwa [hE.f32]
  · unfold Env.fmul Env.fsub
    simp only [hE.f32]
    simp

end Acs
