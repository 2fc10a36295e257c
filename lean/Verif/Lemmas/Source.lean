import Verif.SpecSource

/-! # Choosing the file of a configuration -/

namespace Acs

open Spec

variable {K : Type} {h : Host K} {a : Option String} {p : String}

theorem cfgPath_iff : cfgPath h a = some p ↔ Source h a p := by
  unfold cfgPath Source NoName
  cases a with
  | none => simp
  | some s =>
    by_cases hs : s = ""
    · subst hs; simp
    · simp only [String.isEmpty_iff, hs, if_false, Option.some.injEq, forall_eq', false_and, or_false]
      exact ⟨fun e => ⟨e, e ▸ hs⟩, And.left⟩

theorem cfgPath_none : cfgPath h a = none ↔ NoName a ∧ h.var = none := by
  unfold cfgPath NoName
  cases a with
  | none => simp
  | some s =>
    by_cases hs : s = ""
    · subst hs; simp
    · simp [hs]

end Acs
