import Verif.Lemmas.Patch
import Verif.Props.Update

/-! # C82: when `update_config` returns -/

namespace Acs.Props

open Spec

variable {K : Type} [Field K] [LinearOrder K] [IsStrictOrderedRing K] [FloorRing K]
variable {E : Env K} {j d : Json K} {w w' : World K}

/-- The document with the values that change something exists. -/
theorem C82_patched (hk : DistinctKeys j) (data : Json K) : ∃ d, Patched E data j d := by
  let l := j.items.filter (chg E data)
  have hl : DistinctKeys (.obj l) := by
    unfold DistinctKeys at hk ⊢
    exact hk.sublist (List.filter_sublist.map _)
  obtain ⟨d, h1, h2⟩ := C79_merged hl data
  refine ⟨d, fun k v hv hc => h1 k v ?_, fun k hc => h2 k fun v hv => ?_⟩
  · obtain ⟨v', hv', hc'⟩ := changes_iff.1 hc
    have hn := hk
    unfold DistinctKeys at hn
    have e : v' = v := (Prod.ext_iff.1 (List.inj_on_of_nodup_map hn hv' hv rfl)).2
    exact List.mem_filter.2 ⟨hv, e ▸ hc'⟩
  · obtain ⟨h3, h4⟩ := List.mem_filter.1 hv
    exact hc (changes_iff.2 ⟨v, h3, h4⟩)

/-- `update_config` with a document returns, on a loaded configuration, if and only if the document changes nothing, or
the document with the changes is accepted and, if a structural key changes, a crossbar can be built from it and the one
in use can be destroyed. -/
theorem C82_update (hk : DistinctKeys j) (hx : w.xbar ≠ none) (hp : Patched E w.data j d) :
    (∃ r, updateConfig E (.good j) w = .ok r) ↔
      ((∃ k, Changes E w.data j k) → Editable w.data ∧ ∃ c : Cfg K, FromDoc E d c ∧ Admissible c ∧
        (c.digitalOnly = false → c.adcType ≠ .inf → w.cfg.resolution ≠ -1) ∧
        ((∃ k, structural k ∧ Changes E w.data j k) →
          Buildable E w.cfg c ∧ (c.verbose = false ∨ c.mode.family = .int))) :=
  updateConfig_iff hk hx hp

/-- A member that changes nothing but `I_BIT` needs no crossbar; one that changes the mapping does. -/
example : ∃ w : World ℚ, Reach Ex.env false w ∧ w.xbar ≠ none ∧
    (∃ r, updateConfig Ex.env (.good (.obj [("I_BIT", .int 7)])) w = .ok r) ∧
    (∃ r, updateConfig Ex.env (.good (.obj [("SPLIT", .arr [.int 1, .int 2])])) w = .ok r) ∧
    ¬∃ r, updateConfig Ex.env (.good (.obj [("SPLIT", .arr [.int 31])])) w = .ok r := by
  obtain ⟨w, h1, h2⟩ := Ex.arrived (E := Ex.env) (b := false) (.good (Ex.digital .iOffsWDiff)) []
    (fun w => Ex.hasXbar w (fun _ => true) &&
      (Ex.goes (updateConfig Ex.env (.good (.obj [("I_BIT", .int 7)])) w) (fun _ => true) &&
      (Ex.goes (updateConfig Ex.env (.good (.obj [("SPLIT", .arr [.int 1, .int 2])])) w) (fun _ => true) &&
      Ex.dies (updateConfig Ex.env (.good (.obj [("SPLIT", .arr [.int 31])])) w) .overflow))) (by decide +kernel)
  simp only [Bool.and_eq_true] at h2
  obtain ⟨h2, h3, h4, h5⟩ := h2
  obtain ⟨x, hx, _⟩ := Ex.hasXbar_spec h2
  obtain ⟨a, ha, _⟩ := Ex.goes_spec h3
  obtain ⟨b, hb, _⟩ := Ex.goes_spec h4
  refine ⟨w, h1, by rw [hx]; exact Option.some_ne_none _, ⟨a, ha⟩, ⟨b, hb⟩, ?_⟩
  rw [Ex.dies_spec h5]
  exact fun ⟨_, h⟩ => nomatch h

/-- A document in use can get new members. -/
theorem C82_editable (hr : Reach E false w) (h0 : w.cfg ≠ cfg0) : Editable w.data := by
  obtain ⟨v, hv, _⟩ := ((C76_in_use hr).resolve_left h0).M
  cases hd : w.data with
  | obj l => exact .inr ⟨l, rfl⟩
  | _ => rw [hd] at hv; cases hv

/-- After loading a document. -/
example : ∃ w : World ℚ, Reach Ex.env false w ∧ w.cfg ≠ cfg0 := by
  obtain ⟨w, h1, h2⟩ := Ex.arrived (E := Ex.env) (b := false) (.good (Ex.digital .bnn6)) []
    (fun w => decide (w.cfg.M = 2)) (by decide +kernel)
  refine ⟨w, h1, fun h => ?_⟩
  have h2 := of_decide_eq_true h2
  rw [h] at h2
  cases h2

/-- An exception reaches the caller only for the analog mapping I_TC_W_DIFF with parasitics.  It leaves the new
configuration with the old crossbar. -/
theorem C82_exception (hk : DistinctKeys j) (hp : Patched E w.data j d)
    (h : updateConfig E (.good j) w = .error (.threw w')) :
    w'.xbar = w.xbar ∧ FromDoc E d w'.cfg ∧ Patched E w.data j w'.data ∧ w'.cfg.digitalOnly = false ∧
      w'.cfg.parasitics = true ∧ w'.cfg.mode = .iTcWDiff :=
  updateConfig_exception hk hp h

/-- It does: the crossbar was built for I_DIFF_W_DIFF_1XB, the configuration says I_TC_W_DIFF. -/
example : ∃ w w' : World ℚ, Reach Ex.env false w ∧ w.cfg.mode = .iDiffWDiff1 ∧
    updateConfig Ex.env (.good (.obj [("m_mode", .str "I_TC_W_DIFF")])) w = .error (.threw w') ∧
    w'.cfg.mode = .iTcWDiff := by
  obtain ⟨w, h1, h2⟩ := Ex.arrived (E := Ex.env) (b := false) (.good (Ex.wired .iDiffWDiff1 1)) []
    (fun w => decide (w.cfg.mode = .iDiffWDiff1) &&
      Ex.throws (updateConfig Ex.env (.good (.obj [("m_mode", .str "I_TC_W_DIFF")])) w)
        fun w' => decide (w'.cfg.mode = .iTcWDiff)) (by decide +kernel)
  rw [Bool.and_eq_true, decide_eq_true_iff] at h2
  obtain ⟨w', h3, h4⟩ := Ex.throws_spec h2.2
  exact ⟨w, w', h1, h2.1, h3, of_decide_eq_true h4⟩

end Acs.Props
