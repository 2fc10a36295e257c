import Verif.Lemmas.ApplyDoc

/-! # Two runs of `apply_config` -/

set_option linter.unusedSectionVars false

namespace Acs

open Spec

section
variable {K : Type} [Field K] [LinearOrder K] [IsStrictOrderedRing K] [FloorRing K]
variable {E : Env K} {j j' : Json K} {c c' d d' : Cfg K}

/-- Two documents agree on all structural keys. -/
def SameKeys (j j' : Json K) : Prop := ∀ k, structural k → j'.find k = j.find k

theorem SameKeys.refl (j : Json K) : SameKeys j j := fun _ _ => rfl

theorem getReq_congr {α : Type} {k : String} {f : Json K → C α} (h : j'.find k = j.find k) :
    getReq j' k f = getReq j k f := by
  unfold getReq
  rw [h]

theorem getDef_congr {α : Type} {k : String} {f : Json K → C α} {a : α}
    (h : j'.find k = j.find k) : getDef j' k f a = getDef j k f a := by
  unfold getDef
  rw [h]

theorem req_same {α : Type} {k : String} {f : Json K → C α} {a b : α} (h : j'.find k = j.find k)
    (ha : getReq j k f = .ok a) (hb : getReq j' k f = .ok b) : b = a := by
  rw [getReq_congr h, ha] at hb
  exact (ok_inj.1 hb).symm

theorem def_same {α : Type} {k : String} {f : Json K → C α} {a b x : α} (h : j'.find k = j.find k)
    (ha : getDef j k f x = .ok a) (hb : getDef j' k f x = .ok b) : b = a := by
  rw [getDef_congr h, ha] at hb
  exact (ok_inj.1 hb).symm

theorem structural_iff {k : String} : structural k ↔ recreationKeys.contains k = true :=
  (List.contains_iff_mem (as := recreationKeys)).symm

theorem structural_of {k : String} (h : recreationKeys.contains k = true) : structural k :=
  structural_iff.2 h

theorem applyDims_rel (ag : SameKeys j j') (h : applyDims j c = .ok c') (h' : applyDims j' d = .ok d') :
    d'.M = c'.M ∧ d'.N = c'.N := by
  obtain ⟨m, n, h1, h2, _, _, rfl⟩ := applyDims_inv h
  obtain ⟨m', n', h1', h2', _, _, rfl⟩ := applyDims_inv h'
  exact ⟨req_same (ag _ (structural_of (by decide))) h1 h1',
    req_same (ag _ (structural_of (by decide))) h2 h2'⟩

theorem applyMode_rel (ag : SameKeys j j') (h : applyMode j c = .ok c') (h' : applyMode j' d = .ok d') :
    d'.mode = c'.mode := by
  obtain ⟨s, md, h1, h2, rfl⟩ := applyMode_inv h
  obtain ⟨s', md', h1', h2', rfl⟩ := applyMode_inv h'
  obtain rfl := req_same (ag _ (structural_of (by decide))) h1 h1'
  rw [h2] at h2'
  exact (Option.some.inj h2').symm

theorem applyStates_rel (ag : SameKeys j j') (h : applyStates E j c = .ok c')
    (h' : applyStates E j' d = .ok d') : d'.statesPart = c'.statesPart := by
  obtain ⟨hr, lr, s, a, h1, h2, h3, h4, _, _, rfl⟩ := applyStates_inv h
  obtain ⟨hr', lr', s', a', h1', h2', h3', h4', _, _, rfl⟩ := applyStates_inv h'
  obtain rfl := req_same (ag _ (structural_of (by decide))) h1 h1'
  obtain rfl := req_same (ag _ (structural_of (by decide))) h2 h2'
  obtain rfl := req_same (ag _ (structural_of (by decide))) h3 h3'
  rw [h4] at h4'
  rw [Option.some.inj h4']
  rfl

/-- What two runs of the converter stage have in common when the converter is a real one. -/
structure AdcRel (j j' : Json K) (d c' d' : Cfg K) : Prop where
  res : d'.resolution = c'.resolution
  calib : d'.calibMode = c'.calibMode
  prof : d'.adcProfile = c'.adcProfile
  dict : c'.calibMode = .calib → d'.calibDict = c'.calibDict
  nodict : c'.calibMode ≠ .calib → d'.calibDict = d.calibDict
  bin : j'.find "adc_profile_bin_size" = j.find "adc_profile_bin_size" → c'.adcProfile = true →
    d'.binSize = c'.binSize

theorem applyAdc_rel (ag : SameKeys j j') (h : applyAdc E j c = .ok c') (h' : applyAdc E j' d = .ok d')
    (hi : c.adcType ≠ .inf) (hi' : d.adcType ≠ .inf) : AdcRel j j' d c' d' := by
  rcases applyAdc_inv h with ⟨hn, _⟩ | ⟨_, _, r, c1, h1, h2, h3⟩
  · exact absurd hn hi
  rcases applyAdc_inv h' with ⟨hn, _⟩ | ⟨_, _, r', d1, h1', h2', h3'⟩
  · exact absurd hn hi'
  obtain rfl := req_same (ag _ (structural_of (by decide))) h1 h1'
  obtain ⟨s, hs, hc⟩ := applyCalib_inv h2
  obtain ⟨s', hs', hc'⟩ := applyCalib_inv h2'
  obtain rfl := def_same (ag _ (structural_of (by decide))) hs hs'
  obtain ⟨p, hp, hb⟩ := applyProfile_inv h3
  obtain ⟨p', hp', hb'⟩ := applyProfile_inv h3'
  obtain rfl := def_same (ag _ (structural_of (by decide))) hp hp'
  rcases hc with ⟨rfl, rfl⟩ | ⟨rfl, dd, hd, _, rfl⟩ <;>
  rcases hc' with ⟨e, rfl⟩ | ⟨e, dd', hd', _, rfl⟩
  · rcases hb with ⟨rfl, rfl⟩ | ⟨rfl, b, hb, rfl⟩ <;>
    rcases hb' with ⟨e', rfl⟩ | ⟨e', b', hb', rfl⟩
    · exact ⟨rfl, rfl, rfl, (fun h => nomatch h), fun _ => rfl, fun _ h => nomatch h⟩
    · exact absurd e' (by decide)
    · exact absurd e' (by decide)
    · exact ⟨rfl, rfl, rfl, (fun h => nomatch h), fun _ => rfl, fun ag' _ => def_same ag' hb hb'⟩
  · exact absurd e (by decide)
  · exact absurd e (by decide)
  · obtain rfl := req_same (ag _ (structural_of (by decide))) hd hd'
    rcases hb with ⟨rfl, rfl⟩ | ⟨rfl, b, hb, rfl⟩ <;>
    rcases hb' with ⟨e', rfl⟩ | ⟨e', b', hb', rfl⟩
    · exact ⟨rfl, rfl, rfl, fun _ => rfl, fun h => absurd rfl h, fun _ h => nomatch h⟩
    · exact absurd e' (by decide)
    · exact absurd e' (by decide)
    · exact ⟨rfl, rfl, rfl, fun _ => rfl, fun h => absurd rfl h, fun ag' _ => def_same ag' hb hb'⟩

theorem applyNoise_rel (ag : SameKeys j j') (h : applyNoise E j c = .ok c')
    (h' : applyNoise E j' d = .ok d') :
    (d'.hrsNoise = c'.hrsNoise ∧ d'.lrsNoise = c'.lrsNoise) ∧
    (j'.find "d2d_var" = j.find "d2d_var" → d'.d2d = c'.d2d) ∧
    (j'.find "c2c_var" = j.find "c2c_var" → d'.c2c = c'.c2c) := by
  obtain ⟨x, y, a, b, h1, h2, h3, h4, _, rfl⟩ := applyNoise_inv h
  obtain ⟨x', y', a', b', h1', h2', h3', h4', _, rfl⟩ := applyNoise_inv h'
  obtain rfl := req_same (ag _ (structural_of (by decide))) h1 h1'
  obtain rfl := req_same (ag _ (structural_of (by decide))) h2 h2'
  exact ⟨⟨rfl, rfl⟩, fun e => def_same e h3 h3', fun e => def_same e h4 h4'⟩

theorem applyVRead_rel (ag : SameKeys j j') (h : applyVRead E j c = .ok c')
    (h' : applyVRead E j' d = .ok d') :
    d'.readDisturb = c'.readDisturb ∧ d'.parasitics = c'.parasitics ∧
    (c'.readDisturb = true ∨ c'.parasitics = true → d'.vRead = c'.vRead) ∧
    (c'.readDisturb = false → c'.parasitics = false → d'.vRead = d.vRead ∧ c'.vRead = c.vRead) := by
  obtain ⟨rd, par, h1, h2, h3⟩ := applyVRead_inv h
  obtain ⟨rd', par', h1', h2', h3'⟩ := applyVRead_inv h'
  obtain rfl := def_same (ag _ (structural_of (by decide))) h1 h1'
  obtain rfl := def_same (ag _ (structural_of (by decide))) h2 h2'
  rcases h3 with ⟨hp, v, hv, _, rfl⟩ | ⟨hp, rfl⟩
  · rcases h3' with ⟨_, v', hv', _, rfl⟩ | ⟨hp', _⟩
    · refine ⟨rfl, rfl, fun _ => req_same (ag _ (structural_of (by decide))) hv hv', fun e1 e2 => ?_⟩
      dsimp only at e1 e2
      rw [e1, e2] at hp
      cases hp
    · rw [hp] at hp'; cases hp'
  · rcases h3' with ⟨hp', _⟩ | ⟨_, rfl⟩
    · rw [hp] at hp'; cases hp'
    · refine ⟨rfl, rfl, fun e => ?_, fun _ _ => ⟨rfl, rfl⟩⟩
      simp only [Bool.or_eq_false_iff] at hp
      dsimp only at e
      rw [hp.1, hp.2] at e
      simp at e

/-- What two runs of the read-disturb stage have in common when read disturb is on. -/
structure RdRel (d c' d' : Cfg K) : Prop where
  tRead : d'.tRead = c'.tRead
  freq : d'.updFreq = c'.updFreq
  strat : d'.strategy = c'.strategy
  fp : c'.strategy = .software → d'.fp = c'.fp
  nofp : c'.strategy ≠ .software → d'.fp = d.fp
  tol : c'.strategy = .cellBased → d'.tol = c'.tol
  notol : c'.strategy ≠ .cellBased → d'.tol = d.tol

theorem applyRd_rel (ag : SameKeys j j') (h : applyRd E j c = .ok c') (h' : applyRd E j' d = .ok d')
    (hr : c.readDisturb = true) (hr' : d.readDisturb = true) : RdRel d c' d' := by
  rcases applyRd_inv h with ⟨hn, _⟩ | ⟨_, _, t, f, s, st, h1, h2, h3, h4, h5⟩
  · rw [hr] at hn; cases hn
  rcases applyRd_inv h' with ⟨hn, _⟩ | ⟨_, _, t', f', s', st', h1', h2', h3', h4', h5'⟩
  · rw [hr'] at hn; cases hn
  obtain rfl := req_same (ag _ (structural_of (by decide))) h1 h1'
  obtain rfl := def_same (ag _ (structural_of (by decide))) h2 h2'
  obtain rfl := def_same (ag _ (structural_of (by decide))) h3 h3'
  rw [h4] at h4'
  obtain rfl := Option.some.inj h4'
  rcases applyMitigation_inv h5 with ⟨hs, rfl⟩ | ⟨hs, x, hx, _, rfl⟩ | ⟨hs, x, hx, _, _, rfl⟩ <;>
  rcases applyMitigation_inv h5' with ⟨hs', rfl⟩ | ⟨hs', x', hx', _, rfl⟩ | ⟨hs', x', hx', _, _, rfl⟩ <;>
  first
  | exact absurd (hs.symm.trans hs') (by decide)
  | exact ⟨rfl, rfl, rfl, (fun e => absurd (hs.symm.trans e) (by decide)), fun _ => rfl,
      (fun e => absurd (hs.symm.trans e) (by decide)), fun _ => rfl⟩
  | exact ⟨rfl, rfl, rfl, fun _ => req_same (ag _ (structural_of (by decide))) hx hx',
      fun e => absurd hs e, (fun e => absurd (hs.symm.trans e) (by decide)), fun _ => rfl⟩
  | exact ⟨rfl, rfl, rfl, (fun e => absurd (hs.symm.trans e) (by decide)), fun _ => rfl,
      fun _ => req_same (ag _ (structural_of (by decide))) hx hx', fun e => absurd hs e⟩

theorem applyPar_rel (h : applyPar E j c = .ok c') (h' : applyPar E j' d = .ok d')
    (hp : d.parasitics = c.parasitics) (hw : j'.find "w_res" = j.find "w_res") :
    d'.parasitics = c'.parasitics ∧ (c'.parasitics = true → d'.wRes = c'.wRes) := by
  rcases applyPar_inv h with ⟨hn, rfl⟩ | ⟨hn, w, h1, rfl⟩ <;>
  rcases applyPar_inv h' with ⟨hn', rfl⟩ | ⟨hn', w', h1', rfl⟩
  · exact ⟨hp, fun e => by rw [hn] at e; cases e⟩
  · rw [hp, hn] at hn'; cases hn'
  · rw [hp, hn] at hn'; cases hn'
  · obtain rfl := req_same hw h1 h1'
    exact ⟨rfl, fun _ => rfl⟩

theorem applyBits_rel (ag : SameKeys j j') (h : applyBits j c = .ok c') (h' : applyBits j' d = .ok d')
    (hm : d.mode = c.mode) :
    d'.split = c'.split ∧
    (c.mode.isInt = true ∨ c.mode = .tnn4 ∨ c.mode = .tnn5 → d'.wBit = c'.wBit) ∧
    (c.mode.isInt = false → c.mode ≠ .tnn4 → c.mode ≠ .tnn5 → d'.wBit = d.wBit ∧ c'.wBit = c.wBit) ∧
    (j'.find "I_BIT" = j.find "I_BIT" → c.mode.isInt = true → d'.iBit = c'.iBit) ∧
    (c.mode.isInt = false → d'.iBit = d.iBit ∧ c'.iBit = c.iBit) := by
  rcases applyBits_inv h with ⟨hi, w, i, s, h1, h2, h3, _, _, rfl⟩ | ⟨ht, _, _, rfl⟩ | ⟨hi, ht, rfl⟩ <;>
  rcases applyBits_inv h' with ⟨hi', w', i', s', h1', h2', h3', _, _, rfl⟩ | ⟨ht', _, _, rfl⟩ |
    ⟨hi', ht', rfl⟩
  · exact ⟨req_same (ag _ (structural_of (by decide))) h3 h3',
      fun _ => req_same (ag _ (structural_of (by decide))) h1 h1',
      (fun e => absurd (hi.symm.trans e) (by decide)), fun e _ => req_same e h2 h2',
      (fun e => absurd (hi.symm.trans e) (by decide))⟩
  · rw [hm] at ht'
    rcases ht' with e | e <;> rw [e] at hi <;> cases hi
  · rw [hm, hi] at hi'; cases hi'
  · rw [hm] at hi'
    rcases ht with e | e <;> rw [e] at hi' <;> cases hi'
  · refine ⟨rfl, fun _ => rfl, fun _ e1 e2 => ?_, fun _ e => ?_, fun _ => ⟨rfl, rfl⟩⟩
    · rcases ht with e | e
      · exact absurd e e1
      · exact absurd e e2
    · rcases ht with e' | e' <;> rw [e'] at e <;> cases e
  · exact absurd (hm ▸ ht) ht'
  · rw [hm, hi] at hi'; cases hi'
  · exact absurd (hm ▸ ht') ht
  · refine ⟨rfl, fun e => ?_, fun _ _ _ => ⟨rfl, rfl⟩, fun _ e => ?_, fun _ => ⟨rfl, rfl⟩⟩
    · rcases e with e | e
      · rw [hi] at e; cases e
      · exact absurd e ht
    · rw [hi] at e; cases e

end

end Acs
