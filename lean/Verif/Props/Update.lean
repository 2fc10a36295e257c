import Verif.Lemmas.Same
import Verif.Lemmas.FloatFix
import Verif.Props.Api
import Verif.Props.Load

/-!
# C79: accepted updates take effect
-/

namespace Acs.Props

open Spec

variable {K : Type} [Field K] [LinearOrder K] [IsStrictOrderedRing K] [FloorRing K]
variable {E : Env K} {j d : Json K} {w w' : World K}

/-- After an accepted update of an accepted configuration the parameters are those of the document with the values of the update. -/
def UpdateClaim : Prop :=
  ∀ (E : Env ℚ) (w w' : World ℚ) (j d : Json ℚ), Reach E false w → w.cfg ≠ cfg0 → DistinctKeys j →
    Merged w.data j d → updateConfig E (.good j) w = .ok (w', 0) → FromDoc E d w'.cfg

/-- The document with the values of an update exists. -/
theorem C79_merged (hk : DistinctKeys j) (data : Json K) : ∃ d, Merged data j d := by
  have look : ∀ (l m : List (String × Json K)) (k : String), (l.map Prod.fst).Nodup →
      (∀ v, (k, v) ∈ l → (l ++ m).lookup k = some v) ∧
      ((∀ v, (k, v) ∉ l) → (l ++ m).lookup k = m.lookup k) := by
    intro l m k
    induction l with
    | nil => exact fun _ => ⟨fun v hv => absurd hv List.not_mem_nil, fun _ => rfl⟩
    | cons p l ih =>
      obtain ⟨q, u⟩ := p
      intro hn
      rw [List.map_cons, List.nodup_cons] at hn
      obtain ⟨i1, i2⟩ := ih hn.2
      rw [List.cons_append, List.lookup_cons]
      by_cases hq : k = q
      · subst hq
        rw [beq_self_eq_true]
        refine ⟨fun v hv => ?_, fun h => absurd (List.mem_cons_self ..) (h u)⟩
        rcases List.mem_cons.1 hv with e | hv
        · exact congrArg some (Prod.ext_iff.1 e).2.symm
        · exact absurd (List.mem_map.2 ⟨_, hv, rfl⟩) hn.1
      · rw [beq_eq_false_iff_ne.2 hq]
        refine ⟨fun v hv => ?_, fun h => i2 fun v hv => h v (List.mem_cons_of_mem _ hv)⟩
        rcases List.mem_cons.1 hv with e | hv
        · exact absurd (Prod.ext_iff.1 e).1 hq
        · exact i1 v hv
  have old : ∃ m : List (String × Json K), ∀ k, data.find k = m.lookup k := by
    cases data with
    | obj l => exact ⟨l, fun _ => rfl⟩
    | _ => exact ⟨[], fun _ => rfl⟩
  obtain ⟨m, hm⟩ := old
  refine ⟨.obj (j.items ++ m), fun k v => (look _ m k hk).1 v, fun k h => ?_⟩
  rw [hm]
  exact (look _ m k hk).2 h

/-- It is not so: -1 and 18446744073709551615 compare equal, so that the second value, which is not admissible as a
read voltage, is accepted in place of the first one and ignored. -/
theorem C79_false : ¬UpdateClaim := by
  intro H
  obtain ⟨w, h, p⟩ := Ex.arrived (E := Ex.env) (b := false) (.good (Ex.disturb .bnn6 [("V_read", .int (-1))])) []
    (fun w => Ex.goes (updateConfig Ex.env (.good (.obj [("V_read", .int 18446744073709551615)])) w)
      fun r => r.2 == 0 && (!r.1.cfg.digitalOnly && r.1.cfg.readDisturb && w.cfg.readDisturb)) (by decide +kernel)
  obtain ⟨⟨w', z⟩, h', p⟩ := Ex.goes_spec p
  simp only [Bool.and_eq_true, beq_iff_eq, Bool.not_eq_true'] at p
  obtain ⟨rfl, ⟨hd, hr⟩, hr'⟩ := p
  have hk : DistinctKeys (K := ℚ) (.obj [("V_read", .int 18446744073709551615)]) := by
    unfold DistinctKeys
    decide
  obtain ⟨d, hm⟩ := C79_merged hk w.data
  obtain ⟨_, _, _, _, hv⟩ := ((H _ w w' _ d h (fun e => by rw [e] at hr'; cases hr') hk hm h').analog hd).par
  obtain ⟨⟨v, hf, hv⟩, hn⟩ := hv (.inr hr)
  rw [hm.1 "V_read" (.int 18446744073709551615) (List.mem_cons_self ..)] at hf
  cases hf
  have hv : w'.cfg.vRead = ((18446744073709551615 : Int) : ℚ) := hv
  rw [hv] at hn
  norm_num at hn

/-- It is so if no comparison has to convert a number to a type it does not fit. -/
theorem C79_takes_effect_partial (hE : DoubleInts E) (hr : Reach E false w) (h0 : w.cfg ≠ cfg0) (hk : DistinctKeys j)
    (hc : ClearUpdate w.data j) (hm : Merged w.data j d) (h : updateConfig E (.good j) w = .ok (w', 0)) :
    FromDoc E d w'.cfg := by
  obtain ⟨_, _, _, h4, h5⟩ := C45_rebuild_iff_structural hk h
  have hF : FromDoc E w'.data w'.cfg := by
    rcases after_data (E := E) (w := w) (c := .update (.good j)) (w' := w') (by simp only [after, h]; rfl) with ⟨e1, e2⟩ | ⟨c, e⟩
    · rw [e1, e2]
      exact (C76_in_use hr).resolve_left h0
    · exact loaded_of e
  refine fromDoc_track hE (fun k => ?_) hF
  by_cases hin : ∃ v, (k, v) ∈ j.items
  · obtain ⟨v, hv⟩ := hin
    rw [hm.1 k v hv]
    by_cases hch : Changes E w.data j k
    · exact .inl (h5 k v hv hch).symm
    · rw [h4 k hch]
      cases hf : w.data.find k with
      | none =>
        refine .inr (.inl ⟨rfl, ?_⟩)
        by_contra hn
        refine hch ⟨v, hv, ?_⟩
        rw [hf]
        cases v <;> first | rfl | exact absurd rfl hn
      | some cur =>
        refine .inr (.inr ⟨cur, v, rfl, rfl, ?_, hc k cur v hf hv⟩)
        by_contra hn
        refine hch ⟨v, hv, ?_⟩
        rw [hf]
        exact (Bool.not_eq_true _).mp hn
  · rw [hm.2 k fun v hv => hin ⟨v, hv⟩, h4 k fun ⟨v, hv, _⟩ => hin ⟨v, hv⟩]
    exact .inl rfl

/-- The document with the values of an update, loaded into any process, gives the same parameters. -/
theorem C79_as_loaded_partial (hE : DoubleInts E) (hr : Reach E false w) (h0 : w.cfg ≠ cfg0) (hk : DistinctKeys j)
    (hc : ClearUpdate w.data j) (hm : Merged w.data j d) (h : updateConfig E (.good j) w = .ok (w', 0))
    {u u' : World K} (hl : loadCfg E (.good d) u = .ok (u', true)) : SameEffective u'.cfg w'.cfg ∧
      (u'.cfg.digitalOnly = false → w'.cfg.readDisturb = u'.cfg.readDisturb ∧
        (u'.cfg.adcType ≠ .inf → w'.cfg.adcProfile = u'.cfg.adcProfile)) := by
  have hF := C79_takes_effect_partial hE hr h0 hk hc hm h
  have hA : Admissible w'.cfg := by
    rcases (inv_reach hr).loaded with ⟨e, _⟩ | ⟨c, e⟩
    · exact absurd e h0
    · rcases after_data (E := E) (w := w) (c := .update (.good j)) (w' := w') (by simp only [after, h]; rfl) with
        ⟨e1, _⟩ | ⟨c, e'⟩
      · rw [e1]
        exact applyConfig_ok e
      · exact applyConfig_ok e'
  simp only [loadCfg] at hl
  rw [rbind_ok] at hl
  obtain ⟨c, hl, e⟩ := hl
  rw [lift_ok] at hl
  cases e
  exact ⟨fromDoc_unique (loaded_of hl) (applyConfig_ok hl) hF hA, fromDoc_switches (loaded_of hl) hF⟩

/-- `double` holds these integers if it is binary64. -/
theorem C79_double {E : Env ℚ} (hE : Ieee E) : DoubleInts E := by
  intro z h0 h1
  rw [hE.f64]
  have := rnd64_fix (z := z) (e := 0) (by rw [abs_of_nonneg h0]; omega) (by norm_num)
  simpa using this

/-- An update that writes a number in another form and changes a second one. -/
example : ∃ w w' : World ℚ, Reach Ex.env false w ∧ w.cfg ≠ cfg0 ∧ DoubleInts Ex.env ∧
    ClearUpdate w.data (.obj [("M", .num 2), ("LRS", .int 7)]) ∧
    updateConfig Ex.env (.good (.obj [("M", .num 2), ("LRS", .int 7)])) w = .ok (w', 0) ∧
    w.cfg.lrs = 10 ∧ w'.cfg.lrs = 7 := by
  obtain ⟨w, h, p⟩ := Ex.arrived (E := Ex.env) (b := false) (.good (Ex.analog .bnn6)) []
    (fun w => (w.data.find "M" matches some (.int 2)) && (w.data.find "LRS" matches some (.int 10)) &&
      w.cfg.lrs == 10 && Ex.goes (updateConfig Ex.env (.good (.obj [("M", .num 2), ("LRS", .int 7)])) w)
        fun r => r.2 == 0 && r.1.cfg.lrs == 7) (by decide +kernel)
  simp only [Bool.and_eq_true, beq_iff_eq] at p
  obtain ⟨⟨⟨h1, h2⟩, h3⟩, h4⟩ := p
  obtain ⟨⟨w', z⟩, h', p⟩ := Ex.goes_spec h4
  simp only [Bool.and_eq_true, beq_iff_eq] at p
  obtain ⟨rfl, p⟩ := p
  refine ⟨w, w', h, fun e => ?_, fun z _ _ => rfl, ?_, h', h3, p⟩
  · rw [e] at h3
    exact absurd h3 (by decide +kernel)
  · intro k cur v hf hv
    rcases List.mem_cons.1 hv with e | hv
    · cases e
      rw [hf] at h1
      split at h1
      next e => cases e; exact ⟨by decide, by decide⟩
      next => cases h1
    · cases List.mem_singleton.1 hv
      rw [hf] at h2
      split at h2
      next e => cases e; exact ⟨by decide, by decide⟩
      next => cases h2

end Acs.Props
