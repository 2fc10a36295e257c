import Verif.Lemmas.SessionInv

/-! # The configuration of a reachable state, also after exceptions -/

set_option linter.unusedSectionVars false

namespace Acs

open Spec

/-- One step through the names of the modes. -/
theorem ite_some {c : Prop} [Decidable c] {a b : Mode} {x : Option Mode}
    (h : (if c then some a else x) = some b) : (c ∧ a = b) ∨ x = some b := by
  by_cases hc : c
  · rw [if_pos hc] at h; exact Or.inl ⟨hc, Option.some.inj h⟩
  · rw [if_neg hc] at h; exact Or.inr h

section
variable {K : Type} [Field K] [LinearOrder K] [IsStrictOrderedRing K] [FloorRing K]
variable {E : Env K} {j : Json K} {w w' : World K}

/-- A configuration that some call of `apply_config` accepted. -/
def Given (E : Env K) (c : Cfg K) : Prop := ∃ j c0, applyConfig E j c0 = .ok c

theorem rbind_err {α β : Type} {x : R K α} {f : α → R K β} {e : Stop K} :
    (x >>= f) = .error e ↔ x = .error e ∨ ∃ a, x = .ok a ∧ f a = .error e := by
  cases x with
  | ok a =>
    constructor
    · exact fun h => Or.inr ⟨a, rfl, h⟩
    · rintro (h | ⟨b, h, h'⟩)
      · cases h
      · cases h; exact h'
  | error e' =>
    constructor
    · intro h; cases h; exact Or.inl rfl
    · rintro (h | ⟨b, h, _⟩)
      · cases h; rfl
      · cases h

theorem lift_threw {α : Type} {x : C α} (h : lift w x = .error (.threw w')) :
    x = .error .thrown ∧ w' = w := by
  cases x with
  | ok a => cases h
  | error e => cases e <;> first | (cases h; exact ⟨rfl, rfl⟩) | cases h

theorem map_err {α β : Type} {x : R K α} {f : α → β} {e : Stop K} (h : f <$> x = .error e) :
    x = .error e := by
  cases x with
  | ok a => cases h
  | error e' => cases h; rfl

theorem drop_cfg : w.drop.cfg = w.cfg := by
  unfold World.drop
  split <;> rfl

theorem loadCfg_cfg {f : File K} {q : World K × Bool} (h : loadCfg E f w = .ok q) :
    q.1.cfg = w.cfg ∨ Given E q.1.cfg := by
  unfold loadCfg at h
  split at h
  · cases h; exact Or.inl rfl
  · cases h
  · cases h
  · rw [rbind_ok] at h
    obtain ⟨c, h1, h⟩ := h
    cases h
    exact Or.inr ⟨_, _, lift_ok.1 h1⟩

theorem setConfig_threw {f : File K} (h : setConfig E f w = .error (.threw w')) :
    w'.cfg = w.cfg ∨ Given E w'.cfg := by
  unfold setConfig at h
  rcases rbind_err.1 h with h | ⟨_, _, h⟩
  · unfold release at h
    split at h
    · cases h
    · rw [(lift_threw h).2]; exact Or.inl rfl
  rcases rbind_err.1 h with h | ⟨q, hq, h⟩
  · unfold loadCfg at h
    split at h
    · cases h
    · cases h
    · cases h; exact Or.inl drop_cfg
    · rcases rbind_err.1 h with h | ⟨_, _, h⟩
      · rw [(lift_threw h).2]; exact Or.inl drop_cfg
      · cases h
  rcases rbind_err.1 h with h | ⟨_, _, h⟩
  · rw [(lift_threw h).2]
    rcases loadCfg_cfg hq with h | h
    · exact Or.inl (h.trans drop_cfg)
    · exact Or.inr h
  · cases h

theorem updateConfig_threw {d : Doc K} (h : updateConfig E d w = .error (.threw w')) :
    w'.cfg = w.cfg ∨ Given E w'.cfg := by
  unfold updateConfig at h
  split at h
  · cases h
  split at h
  · cases h
  · cases h
  rcases rbind_err.1 h with h | ⟨q, hq, h⟩
  · unfold updateCfg at h
    rcases rbind_err.1 h with h | ⟨_, _, h⟩
    · rw [(lift_threw h).2]; exact Or.inl rfl
    · split at h
      · rcases rbind_err.1 h with h | ⟨_, _, h⟩
        · rw [(lift_threw h).2]; exact Or.inl rfl
        · cases h
      · cases h
  · have hc : q.1.cfg = w.cfg ∨ Given E q.1.cfg := by
      obtain ⟨_, _, _, a4, a5, _⟩ := updateCfg_agree hq
      cases hm : q.2.1
      · rw [a5 hm]; exact Or.inl rfl
      · exact Or.inr ⟨_, _, a4 hm⟩
    split at h
    · rcases rbind_err.1 h with h | ⟨_, _, h⟩
      · rw [(lift_threw h).2]; exact hc
      rcases rbind_err.1 h with h | ⟨_, _, h⟩
      · unfold release at h
        split at h
        · cases h
        · rw [(lift_threw h).2]; exact hc
      · cases h
    · cases h

theorem updateConfig_cfg {d : Doc K} {z : Int} (h : updateConfig E d w = .ok (w', z)) :
    w'.cfg = w.cfg ∨ Given E w'.cfg := by
  rcases updateConfig_inv h with ⟨rfl, _⟩ | ⟨x, j, q, hx, _, _, hq, h2⟩
  · exact Or.inl rfl
  · obtain ⟨_, _, _, a4, a5, _⟩ := updateCfg_agree hq
    have e : w'.cfg = q.1.cfg := by
      rcases h2 with ⟨_, _, _, _, _, _, h6, _⟩ | ⟨_, rfl⟩
      · exact h6
      · rfl
    rw [e]
    cases hm : q.2.1
    · rw [a5 hm]; exact Or.inl rfl
    · exact Or.inr ⟨_, _, a4 hm⟩

theorem after_cfg {c : Call K} (h : after E w c = .ok w' ∨ after E w c = .error (.threw w')) :
    w'.cfg = w.cfg ∨ Given E w'.cfg := by
  rcases h with h | h
  · cases c with
    | setConfig f =>
      obtain ⟨_, x, _, _, h4⟩ := setConfig_inv h
      rcases h4 with ⟨_, h5, _⟩ | ⟨j, _, _, h6⟩
      · exact Or.inl h5
      · exact Or.inr ⟨_, _, h6⟩
    | update d =>
      simp only [after] at h
      cases hu : updateConfig E d w with
      | error e => rw [hu] at h; cases h
      | ok q => rw [hu] at h; cases h; exact updateConfig_cfg hu
    | updatePb d =>
      simp only [after, updateConfigPb] at h
      cases d with
      | none => cases h; exact Or.inl rfl
      | some d =>
        rw [rbind_ok] at h
        obtain ⟨q, hu, h⟩ := h
        cases h
        exact updateConfig_cfg hu
    | write mat m n =>
      simp only [after] at h
      cases hu : cpyMtrx E mat m n w with
      | error e => rw [hu] at h; cases h
      | ok q =>
        rw [hu] at h
        cases h
        rcases cpyMtrx_inv (w' := q.1) (z := q.2) hu with ⟨h1, _⟩ | ⟨x, x', _, _, _, _, h3⟩
        · rw [h1]; exact Or.inl rfl
        · rw [h3]; exact Or.inl rfl
    | mvm res vec mat m n l =>
      simp only [after] at h
      cases hu : exeMvm E res vec mat m n l w with
      | error e => rw [hu] at h; cases h
      | ok q =>
        rw [hu] at h
        cases h
        rcases exeMvm_inv (w' := q.1) (r := q.2.1) (z := q.2.2) hu with ⟨h1, _⟩ | ⟨x, x', _, _, _, _, h3⟩
        · rw [h1]; exact Or.inl rfl
        · rw [h3]; exact Or.inl rfl
    | mvmPb res vec mat m n =>
      simp only [after] at h
      cases hu : exeMvmPb E res vec mat m n w with
      | error e => rw [hu] at h; cases h
      | ok q =>
        rw [hu] at h
        cases h
        obtain ⟨x, x', _, _, _, h3⟩ := exeMvmPb_inv (w' := q.1) (r := q.2.1) (z := q.2.2) hu
        rw [h3]; exact Or.inl rfl
  · cases c with
    | setConfig f => exact setConfig_threw h
    | update d => exact updateConfig_threw (map_err h)
    | updatePb d =>
      simp only [after, updateConfigPb] at h
      cases d with
      | none => cases h
      | some d =>
        rcases rbind_err.1 h with h | ⟨_, _, h⟩
        · exact updateConfig_threw h
        · cases h
    | write mat m n =>
      have h := map_err h
      unfold cpyMtrx at h
      split at h
      · cases h
      split at h
      · cases h
      rcases rbind_err.1 h with h | ⟨_, _, h⟩
      · rw [(lift_threw h).2]; exact Or.inl rfl
      · cases h
    | mvm res vec mat m n l =>
      have h := map_err h
      unfold exeMvm at h
      split at h
      · cases h
      split at h
      · cases h
      rcases rbind_err.1 h with h | ⟨_, _, h⟩
      · rw [(lift_threw h).2]; exact Or.inl rfl
      · cases h
    | mvmPb res vec mat m n =>
      have h := map_err h
      unfold exeMvmPb at h
      split at h
      · cases h
      rcases rbind_err.1 h with h | ⟨_, _, h⟩
      · rw [(lift_threw h).2]; exact Or.inl rfl
      · cases h

theorem cfg_reach {exc : Bool} (h : Reach E exc w) : w.cfg = cfg0 ∨ Given E w.cfg := by
  induction h with
  | boot h =>
    rcases boot_inv h with ⟨_, rfl⟩ | ⟨j, x, _, _, h3, _, _⟩
    · exact Or.inl rfl
    · exact Or.inr ⟨_, _, h3⟩
  | step _ h' ih =>
    rcases after_cfg (Or.inl h') with e | e
    · rw [e]; exact ih
    · exact Or.inr e
  | caught _ _ h' ih =>
    rcases after_cfg (Or.inr h') with e | e
    · rw [e]; exact ih
    · exact Or.inr e

/-! ## Rejected calls -/

theorem tooBig_of {a b : Int} (ha : -2147483648 ≤ a ∧ a < 2147483648)
    (hb : -2147483648 ≤ b ∧ b < 2147483648)
    (h : (w.cfg.M : Int) < a ∨ (w.cfg.N : Int) < b ∨ (a < 0 ∧ w.cfg.M < 2147483648) ∨
      (b < 0 ∧ w.cfg.N < 2147483648)) : tooBig w a b := by
  unfold tooBig toU32
  omega

/-- Dimensions that pass the check are not negative and fit, unless the crossbar has `2^31` rows or
columns. -/
theorem not_tooBig_iff {a b : Int} (ha : -2147483648 ≤ a ∧ a < 2147483648)
    (hb : -2147483648 ≤ b ∧ b < 2147483648) (hM : w.cfg.M < 2147483648) (hN : w.cfg.N < 2147483648) :
    ¬tooBig w a b ↔ 0 ≤ a ∧ a ≤ w.cfg.M ∧ 0 ≤ b ∧ b ≤ w.cfg.N := by
  unfold tooBig toU32
  omega

/-! ## Parameters a crossbar is built from -/

theorem mkXbar_other {c d : Cfg K} (h : SameStruct c d) (hp : d.parasitics = c.parasitics)
    (hw : c.parasitics = true → d.wRes = c.wRes) (rng : Nat) (hists : List (String × Hist K)) :
    mkXbar E d rng hists = mkXbar E c rng hists := by
  have hs : optSolver d = optSolver c := by
    unfold SameStruct at h
    unfold optSolver
    cases hc : c.parasitics
    · rw [hp, hc]; simp
    · have e : mkSolver d = mkSolver c := by
        have hw := hw hc
        rw [h, hw]
        rfl
      rw [e, hp, hc, h]
  unfold mkXbar mkMapper mkCore
  rw [hs]
  unfold SameStruct at h
  rw [h]
  rfl

end

end Acs
