import Verif.Lemmas.Keys
import Verif.Props.Load
import Verif.Props.Patch
import Verif.Props.ExApi

/-! # C97: keys that are no parameters -/

namespace Acs.Props

open Spec

variable {K : Type} [Field K] [LinearOrder K] [IsStrictOrderedRing K] [FloorRing K]
variable {E : Env K} {j j' : Json K} {w w' : World K}

/-- What `update_config` goes through are the entries of the update. -/
theorem C97_entries {k : String} {v : Json K} : (k, v) ∈ j.items ↔ Entry j k v := items_entry

/-- The second element of an array. -/
example : (("1", .bool true) : String × Json ℚ) ∈ Json.items (.arr [.null, .bool true]) :=
  C97_entries.2 ⟨1, rfl, by decide⟩

/-- An update none of whose keys is a parameter, e.g. a misspelt one, is accepted and changes nothing but the document:
the crossbar and the configuration stay as they are.  (Provided that a file has been loaded and that the resolution of a
real converter is not -1.) -/
theorem C97_unknown (hr : Reach E false w) (hx : w.xbar ≠ none) (h0 : w.cfg ≠ cfg0)
    (hres : w.cfg.digitalOnly = false → w.cfg.adcType ≠ .inf → w.cfg.resolution ≠ -1) (hk : DistinctKeys j)
    (hu : ∀ k v, Entry j k v → ¬parameter k) :
    ∃ d, updateConfig E (.good j) w = .ok ({ w with data := d }, 0) ∧ SameParameters w.data d := by
  obtain ⟨c, hc⟩ := (inv_reach hr).loaded.resolve_left fun h => h0 h.1
  have hn : ∀ k, parameter k → ¬Changes E w.data j k := fun k hp ⟨v, hv, _⟩ => hu k v (items_entry.1 hv) hp
  obtain ⟨d, hd⟩ := C82_patched (E := E) hk w.data
  have hs : SameParameters w.data d := fun k hp => hd.2 k (hn k hp)
  have ha : applyConfig E d w.cfg = .ok w.cfg := (apply_params hs).trans (apply_idem hc hres)
  obtain ⟨⟨w', z⟩, h⟩ := (C82_update hk hx hd).2 fun _ => ⟨C82_editable hr h0, w.cfg, loaded_of ha, applyConfig_ok ha, hres,
    fun ⟨k, hst, hch⟩ => absurd hch (hn k (.inl hst))⟩
  obtain rfl := update_code h hx
  obtain ⟨k1, q, k2, _, rfl⟩ := update_keep (fun k hst => hn k (.inl hst)) hk h
  have hp := updateCfg_patched hk k2
  have hs' : SameParameters w.data q.1.data := fun k hk' => hp.2 k (hn k hk')
  refine ⟨q.1.data, ?_, hs'⟩
  rw [h]
  obtain ⟨a1, a2, a3, _, _, a6, a7, _, _⟩ := updateCfg_inv hk k2
  have hc' : q.1.cfg = w.cfg := by
    cases hq : q.2.1 with
    | true =>
      have := a6 hq
      rw [apply_params hs', apply_idem hc hres] at this
      exact (ok_inj.1 this).symm
    | false => rw [a7 hq]
  have : q.1 = { w with data := q.1.data } := by
    rcases hq : q.1 with ⟨c1, d1, x1, r1, h1⟩
    rw [hq] at a1 a2 a3 hc'
    rcases w with ⟨c2, d2, x2, r2, h2⟩
    cases a1
    cases a2
    cases a3
    cases hc'
    rfl
  rw [← this]

/-- A misspelt key. -/
example : ∃ (w : World ℚ) (d : Json ℚ), Reach Ex.env false w ∧ w.cfg ≠ cfg0 ∧
    updateConfig Ex.env (.good (.obj [("Verbose", .bool true), ("m_mod", .str "BNN_I")])) w = .ok ({ w with data := d }, 0) := by
  obtain ⟨w, h1, h2⟩ := Ex.arrived (E := Ex.env) (b := false) (.good (Ex.digital .iOffsWDiff)) []
    (fun w => Ex.hasXbar w (fun _ => true) && (w.cfg.M != 0 && w.cfg.digitalOnly)) (by decide +kernel)
  simp only [Bool.and_eq_true, bne_iff_ne] at h2
  obtain ⟨h2, h3, h4⟩ := h2
  obtain ⟨x, hx, _⟩ := Ex.hasXbar_spec h2
  have h0 : w.cfg ≠ cfg0 := fun e => h3 (by rw [e]; rfl)
  obtain ⟨d, h, _⟩ := C97_unknown (j := .obj [("Verbose", .bool true), ("m_mod", .str "BNN_I")]) h1
    (by rw [hx]; exact Option.some_ne_none _) h0 (fun h => by rw [h4] at h; cases h)
    (show ["Verbose", "m_mod"].Nodup by decide) (fun k v he hp => by
      have hk : k ∈ ["Verbose", "m_mod"] := List.mem_map_of_mem (f := Prod.fst) (show (k, v) ∈ [("Verbose", .bool true), ("m_mod", .str "BNN_I")] from he)
      have : ∀ k ∈ ["Verbose", "m_mod"], k ∉ ["W_BIT", "M", "N", "SPLIT", "digital_only", "HRS", "LRS", "adc_type", "resolution",
          "adc_profile", "adc_calib_mode", "adc_calib_dict", "m_mode", "HRS_NOISE", "LRS_NOISE", "read_disturb", "V_read", "t_read",
          "read_disturb_update_freq", "read_disturb_mitigation_strategy", "read_disturb_mitigation_fp",
          "read_disturb_update_tolerance", "parasitics"] ∧
        k ∉ ["I_BIT", "verbose", "adc_profile_bin_size", "d2d_var", "c2c_var", "w_res"] := by decide
      exact hp.elim (this k hk).1 (this k hk).2)
  exact ⟨w, d, h1, h0, h⟩

/-- In particular every update that is not an object: arrays, strings, numbers, truth values and `null`. -/
theorem C97_plain (hr : Reach E false w) (hx : w.xbar ≠ none) (h0 : w.cfg ≠ cfg0)
    (hres : w.cfg.digitalOnly = false → w.cfg.adcType ≠ .inf → w.cfg.resolution ≠ -1) (hj : ∀ l, j ≠ .obj l) :
    ∃ d, updateConfig E (.good j) w = .ok ({ w with data := d }, 0) ∧ SameParameters w.data d :=
  C97_unknown hr hx h0 hres (plain_unknown hj).1 (plain_unknown hj).2

/-- An array with a document in it: its element is entered under the key 0. -/
example : ∃ (w : World ℚ) (d : Json ℚ), Reach Ex.env false w ∧ w.cfg ≠ cfg0 ∧
    updateConfig Ex.env (.good (.arr [Ex.digital .bnn1])) w = .ok ({ w with data := d }, 0) ∧ (d.find "0").isSome = true := by
  obtain ⟨w, h1, h2⟩ := Ex.arrived (E := Ex.env) (b := false) (.good (Ex.digital .iOffsWDiff)) []
    (fun w => Ex.hasXbar w (fun _ => true) && (w.cfg.M != 0 && (w.cfg.digitalOnly &&
      Ex.goes (updateConfig Ex.env (.good (.arr [Ex.digital .bnn1])) w) fun r => (r.1.data.find "0").isSome))) (by decide +kernel)
  simp only [Bool.and_eq_true, bne_iff_ne] at h2
  obtain ⟨h2, h3, h4, h5⟩ := h2
  obtain ⟨x, hx, _⟩ := Ex.hasXbar_spec h2
  have h0 : w.cfg ≠ cfg0 := fun e => h3 (by rw [e]; rfl)
  obtain ⟨d, h, _⟩ := C97_plain (j := .arr [Ex.digital .bnn1]) h1 (by rw [hx]; exact Option.some_ne_none _) h0
    (fun h => by rw [h4] at h; cases h) (fun l h => by cases h)
  obtain ⟨r, e, hd⟩ := Ex.goes_spec h5
  rw [h] at e
  cases e
  exact ⟨w, d, h1, h0, h, hd⟩

/-- Members of a file that are no parameters do not matter: files that agree in the parameters lead to the same state. -/
theorem C97_file (h : SameParameters j j') :
    setConfig E (.good j) w = .ok w' → setConfig E (.good j') w = .ok { w' with data := j' } := by
  intro e
  have hd : ∀ (c : Cfg K) (j : Json K), ({ w.drop with cfg := c, data := j } : World K).drop = { w.drop with cfg := c, data := j } :=
    fun c j => by
      have hxb : w.drop.xbar = none := by
        unfold World.drop
        split
        · assumption
        · rfl
      unfold World.drop at hxb ⊢
      dsimp only
      split
      · rfl
      · next e => rw [hxb] at e; cases e
  unfold setConfig at e ⊢
  rw [rbind_ok] at e
  obtain ⟨_, e1, e⟩ := e
  rw [rbind_ok] at e
  obtain ⟨q, e2, e⟩ := e
  rw [rbind_ok] at e
  obtain ⟨x, e3, e⟩ := e
  rw [rok_inj] at e
  subst e
  dsimp only [loadCfg] at e2
  rw [rbind_ok] at e2
  obtain ⟨c, e4, e2⟩ := e2
  rw [lift_ok] at e4
  rw [rok_inj] at e2
  subst e2
  have e4' : applyConfig E j' w.drop.cfg = .ok c := (apply_params h).trans e4
  unfold newXbar at e3 ⊢
  rw [lift_ok, hd] at e3
  refine rbind_ok.2 ⟨(), e1, rbind_ok.2 ⟨({ w.drop with cfg := c, data := j' }, true), ?_, rbind_ok.2 ⟨x, ?_, rfl⟩⟩⟩
  · dsimp only [loadCfg]
    rw [e4']
    rfl
  · rw [lift_ok, hd]
    exact e3

/-- A file with a remark. -/
example : ∃ w' : World ℚ, setConfig Ex.env (.good (Ex.digital .bnn1)) world0 = .ok w' ∧
    ∀ m, setConfig Ex.env (.good (.obj (m :: (Ex.digital .bnn1).items))) world0 =
      .ok { w' with data := .obj (m :: (Ex.digital .bnn1).items) } ∨ parameter m.1 := by
  obtain ⟨w', h, _⟩ := Ex.goes_spec (x := setConfig Ex.env (.good (Ex.digital .bnn1)) world0) (p := fun _ => true) (by decide +kernel)
  refine ⟨w', h, fun m => ?_⟩
  by_cases hm : parameter m.1
  · exact .inr hm
  · refine .inl (C97_file (fun k hk => ?_) h)
    have hn : k ≠ m.1 := fun e => hm (e ▸ hk)
    show List.lookup k (m :: (Ex.digital .bnn1).items) = _
    rcases m with ⟨a, b⟩
    simp only [List.lookup, beq_eq_false_iff_ne.2 hn]
    rfl

/-- Loading the file in use once more changes no parameter at all. -/
theorem C97_reload {w'' : World K} (h : setConfig E (.good j) w = .ok w')
    (hres : w'.cfg.digitalOnly = false → w'.cfg.adcType ≠ .inf → w'.cfg.resolution ≠ -1)
    (h' : setConfig E (.good j') w' = .ok w'') (hs : SameParameters j j') : w''.cfg = w'.cfg := by
  obtain ⟨_, _, _, _, k⟩ := setConfig_inv h
  obtain ⟨_, _, _, _, k'⟩ := setConfig_inv h'
  rcases k with ⟨k, _⟩ | ⟨i, k, _, ha⟩
  · cases k
  rcases k' with ⟨k', _⟩ | ⟨i', k', _, ha'⟩
  · cases k'
  cases k
  cases k'
  rw [apply_params hs, apply_idem ha hres] at ha'
  exact (ok_inj.1 ha').symm

/-- A file that is loaded twice. -/
example : ∃ w' w'' : World ℚ, setConfig Ex.env (.good (Ex.digital .bnn1)) world0 = .ok w' ∧
    setConfig Ex.env (.good (Ex.digital .bnn1)) w' = .ok w'' ∧ w'.cfg.digitalOnly = true := by
  obtain ⟨w', h, h'⟩ := Ex.goes_spec (x := setConfig Ex.env (.good (Ex.digital .bnn1)) world0)
    (p := fun w => w.cfg.digitalOnly && Ex.goes (setConfig Ex.env (.good (Ex.digital .bnn1)) w) fun _ => true) (by decide +kernel)
  simp only [Bool.and_eq_true] at h'
  obtain ⟨w'', h'', _⟩ := Ex.goes_spec h'.2
  exact ⟨w', w'', h, h'', h'.1⟩

/-- Without the condition on the resolution it is false: a resolution of -1 is accepted once, and then every update ends
the program, also one without parameters. -/
theorem C97_needs_resolution : ∃ w : World ℚ, Reach Ex.env false w ∧ w.xbar ≠ none ∧ w.cfg ≠ cfg0 ∧
    updateConfig Ex.env (.good (.obj [("remark", .bool true)])) w = .error (.dead .exited) := by
  obtain ⟨w, h1, h2⟩ := Ex.arrived (E := Ex.env) (b := false)
    (.good (Ex.analog .bnn6 [("adc_type", .str "SYM_RANGE_ADC"), ("resolution", .int (-1))])) []
    (fun w => Ex.hasXbar w (fun _ => true) && (w.cfg.M != 0 &&
      Ex.dies (updateConfig Ex.env (.good (.obj [("remark", .bool true)])) w) .exited)) (by decide +kernel)
  simp only [Bool.and_eq_true, bne_iff_ne] at h2
  obtain ⟨h2, h3, h4⟩ := h2
  obtain ⟨x, hx, _⟩ := Ex.hasXbar_spec h2
  exact ⟨w, h1, by rw [hx]; exact Option.some_ne_none _, fun e => h3 (by rw [e]; rfl), Ex.dies_spec h4⟩

end Acs.Props
