import Verif.SpecKeys
import Verif.Lemmas.Idem
import Verif.Lemmas.Patch
import Verif.Lemmas.Program
import Std.Data.String.ToNat

/-! # Keys that are no parameters -/

namespace Acs

open Spec

section
variable {K : Type} {j : Json K} {k : String} {v : Json K}

theorem items_entry : (k, v) ∈ j.items ↔ Entry j k v := by
  unfold Json.items Entry
  cases j with
  | arr l =>
    simp only [List.mem_map, Prod.mk.injEq, Prod.exists]
    constructor
    · rintro ⟨a, i, h, rfl, rfl⟩
      rw [List.mem_zipIdx_iff_getElem?] at h
      exact ⟨i, h, rfl⟩
    · rintro ⟨i, h, rfl⟩
      exact ⟨v, i, List.mem_zipIdx_iff_getElem?.2 h, rfl, rfl⟩
  | obj l => exact Iff.rfl
  | null => simp
  | _ => simp

theorem parameter_letter (h : parameter k) : ∃ c ∈ k.toList, c.isDigit = false := by
  unfold parameter structural at h
  rw [← List.mem_append] at h
  have : ∀ k ∈ (["W_BIT", "M", "N", "SPLIT", "digital_only", "HRS", "LRS", "adc_type", "resolution",
    "adc_profile", "adc_calib_mode", "adc_calib_dict", "m_mode", "HRS_NOISE", "LRS_NOISE",
    "read_disturb", "V_read", "t_read", "read_disturb_update_freq",
    "read_disturb_mitigation_strategy", "read_disturb_mitigation_fp",
    "read_disturb_update_tolerance", "parasitics"] ++ ["I_BIT", "verbose", "adc_profile_bin_size", "d2d_var", "c2c_var", "w_res"]),
    ∃ c ∈ k.toList, c.isDigit = false := by decide
  exact this k h

theorem number_unknown (i : Nat) : ¬parameter (toString i) := fun h => by
  obtain ⟨c, hc, hd⟩ := parameter_letter h
  change c ∈ (Nat.repr i).toList at hc
  rw [Nat.toList_repr] at hc
  rw [Nat.isDigit_of_mem_toDigits (by decide) (by decide) hc] at hd
  cases hd

theorem empty_unknown : ¬parameter "" := fun h => by
  obtain ⟨c, hc, _⟩ := parameter_letter h
  cases hc

/-- Updates other than objects. -/
theorem plain_unknown (h : ∀ l, j ≠ .obj l) : DistinctKeys j ∧ ∀ k v, Entry j k v → ¬parameter k := by
  unfold DistinctKeys Json.items Entry
  cases j with
  | obj l => exact absurd rfl (h l)
  | arr l =>
    refine ⟨?_, ?_⟩
    · dsimp only
      rw [List.map_map]
      have e : (Prod.fst ∘ fun p : Json K × Nat => (toString p.2, p.1)) = (fun i : Nat => toString i) ∘ Prod.snd := rfl
      rw [e, ← List.map_map, List.zipIdx_map_snd]
      exact List.Nodup.map (fun a b hab => Nat.repr_injective hab) (List.nodup_range' ..)
    · rintro k v ⟨i, _, rfl⟩
      exact number_unknown i
  | null => exact ⟨List.nodup_nil, fun _ _ h => h.elim⟩
  | _ => exact ⟨List.nodup_singleton _, fun _ _ h => h.1 ▸ empty_unknown⟩

end

section
variable {K : Type} [Field K] [LinearOrder K] [IsStrictOrderedRing K] [FloorRing K]
variable {E : Env K} {j j' : Json K} {c : Cfg K} {w : World K}

theorem req_params (h : SameParameters j j') {α : Type} {k : String} {get : Json K → C α} (hk : parameter k) :
    getReq j' k get = getReq j k get := by
  unfold getReq
  rw [h k hk]

theorem def_params (h : SameParameters j j') {α : Type} {k : String} {get : Json K → C α} {d : α} (hk : parameter k) :
    getDef j' k get d = getDef j k get d := by
  unfold getDef
  rw [h k hk]

theorem param_of {k : String} (h : k ∈ ["W_BIT", "M", "N", "SPLIT", "digital_only", "HRS", "LRS", "adc_type", "resolution",
    "adc_profile", "adc_calib_mode", "adc_calib_dict", "m_mode", "HRS_NOISE", "LRS_NOISE",
    "read_disturb", "V_read", "t_read", "read_disturb_update_freq",
    "read_disturb_mitigation_strategy", "read_disturb_mitigation_fp",
    "read_disturb_update_tolerance", "parasitics"] ++ ["I_BIT", "verbose", "adc_profile_bin_size", "d2d_var", "c2c_var", "w_res"]) :
    parameter k := by
  unfold parameter structural
  rw [← List.mem_append]
  exact h

/-- Only the parameters of a document matter. -/
theorem apply_params (h : SameParameters j j') : applyConfig E j' c = applyConfig E j c := by
  have r : ∀ {α : Type} {k : String} {get : Json K → C α}, parameter k → getReq j' k get = getReq j k get := fun hk => req_params h hk
  have o : ∀ {α : Type} {k : String} {get : Json K → C α} {d : α}, parameter k → getDef j' k get d = getDef j k get d :=
    fun hk => def_params h hk
  have e1 : ∀ c : Cfg K, applyDims j' c = applyDims j c := fun c => by
    unfold applyDims
    rw [r (param_of (k := "M") (by decide)), r (param_of (k := "N") (by decide))]
  have e2 : ∀ c : Cfg K, applyMode j' c = applyMode j c := fun c => by
    unfold applyMode
    rw [r (param_of (k := "m_mode") (by decide))]
  have e3 : ∀ c : Cfg K, applyStates E j' c = applyStates E j c := fun c => by
    unfold applyStates
    rw [r (param_of (k := "HRS") (by decide)), r (param_of (k := "LRS") (by decide)), r (param_of (k := "adc_type") (by decide))]
  have e4 : ∀ c : Cfg K, applyCalib E j' c = applyCalib E j c := fun c => by
    unfold applyCalib
    rw [o (param_of (k := "adc_calib_mode") (by decide)), r (param_of (k := "adc_calib_dict") (by decide))]
  have e5 : ∀ c : Cfg K, applyProfile j' c = applyProfile j c := fun c => by
    unfold applyProfile
    rw [o (param_of (k := "adc_profile") (by decide)), o (param_of (k := "adc_profile_bin_size") (by decide))]
  have e6 : ∀ c : Cfg K, applyAdc E j' c = applyAdc E j c := fun c => by
    unfold applyAdc
    simp only [r (param_of (k := "resolution") (by decide)), e4, e5]
  have e7 : ∀ c : Cfg K, applyNoise E j' c = applyNoise E j c := fun c => by
    unfold applyNoise
    rw [r (param_of (k := "HRS_NOISE") (by decide)), r (param_of (k := "LRS_NOISE") (by decide)),
      o (param_of (k := "d2d_var") (by decide)), o (param_of (k := "c2c_var") (by decide))]
  have e8 : ∀ c : Cfg K, applyVRead E j' c = applyVRead E j c := fun c => by
    unfold applyVRead
    rw [o (param_of (k := "read_disturb") (by decide)), o (param_of (k := "parasitics") (by decide)),
      r (param_of (k := "V_read") (by decide))]
  have e9 : ∀ c : Cfg K, applyMitigation E j' c = applyMitigation E j c := fun c => by
    unfold applyMitigation
    rw [r (param_of (k := "read_disturb_mitigation_fp") (by decide)), r (param_of (k := "read_disturb_update_tolerance") (by decide))]
  have e10 : ∀ c : Cfg K, applyRd E j' c = applyRd E j c := fun c => by
    unfold applyRd
    simp only [r (param_of (k := "t_read") (by decide)), o (param_of (k := "read_disturb_update_freq") (by decide)),
      o (param_of (k := "read_disturb_mitigation_strategy") (by decide)), e9]
  have e11 : ∀ c : Cfg K, applyPar E j' c = applyPar E j c := fun c => by
    unfold applyPar
    rw [r (param_of (k := "w_res") (by decide))]
  have e12 : ∀ c : Cfg K, applyAnalog E j' c = applyAnalog E j c := fun c => by
    unfold applyAnalog
    simp only [e3, e6, e7, e8, e10, e11]
  have e13 : ∀ c : Cfg K, applyBits j' c = applyBits j c := fun c => by
    unfold applyBits
    simp only [r (param_of (k := "W_BIT") (by decide)), r (param_of (k := "I_BIT") (by decide)), r (param_of (k := "SPLIT") (by decide))]
  unfold applyConfig
  simp only [e1, e2, e12, e13, r (param_of (k := "digital_only") (by decide)), r (param_of (k := "verbose") (by decide))]

end

end Acs
