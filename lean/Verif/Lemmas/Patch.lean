import Verif.SpecUpdate
import Verif.Lemmas.Build

/-! # When updates return -/

set_option linter.unusedSectionVars false

namespace Acs

open Spec

section
variable {K : Type} [Field K] [LinearOrder K] [IsStrictOrderedRing K] [FloorRing K]
variable {E : Env K} {j d d' : Json K} {w w' : World K} {c : Cfg K}

/-! ## Documents with the same members -/

theorem gives_find (h : ∀ k, d'.find k = d.find k) {α : Type} {key : String} {P : Json K → α → Prop} {x : α}
    (g : Gives d key P x) : Gives d' key P x := by
  unfold Gives at g ⊢
  rw [h]
  exact g

theorem givesOr_find (h : ∀ k, d'.find k = d.find k) {α : Type} {key : String} {T : Json K → Prop}
    {P : Json K → α → Prop} {x y : α} (g : GivesOr d key T P y x) : GivesOr d' key T P y x := by
  unfold GivesOr Gives at g ⊢
  rw [h]
  exact g

theorem fromDoc_find (h : ∀ k, d'.find k = d.find k) (F : FromDoc E d c) : FromDoc E d' c where
  M := gives_find h F.M
  N := gives_find h F.N
  mode := gives_find h F.mode
  digital := gives_find h F.digital
  verbose := gives_find h F.verbose
  wBit := fun p => gives_find h (F.wBit p)
  iBit := fun p => gives_find h (F.iBit p)
  split := fun p => gives_find h (F.split p)
  analog := fun p => by
    have A := F.analog p
    refine ⟨gives_find h A.hrs, gives_find h A.lrs, gives_find h A.adcType, fun q => ?_, gives_find h A.hrsNoise,
      gives_find h A.lrsNoise, givesOr_find h A.d2d, givesOr_find h A.c2c, givesOr_find h A.readDisturb, fun q => ?_, ?_⟩
    · have B := A.adc q
      exact ⟨gives_find h B.resolution, givesOr_find h B.calib, fun r => gives_find h (B.dict r),
        givesOr_find h B.profile, fun r => givesOr_find h (B.bin r)⟩
    · have B := A.rd q
      exact ⟨gives_find h B.tRead, givesOr_find h B.freq, givesOr_find h B.strategy,
        fun r => gives_find h (B.fp r), fun r => gives_find h (B.tol r)⟩
    · obtain ⟨p, h1, h2, h3, h4⟩ := A.par
      exact ⟨p, givesOr_find h h1, fun r => gives_find h (h2 r), h3, fun r => ⟨gives_find h (h4 r).1, (h4 r).2⟩⟩

theorem patched_find {data : Json K} (hk : DistinctKeys j) (h : Patched E data j d) (h' : Patched E data j d') (k : String) :
    d'.find k = d.find k := by
  by_cases hc : Changes E data j k
  · obtain ⟨v, hv, _⟩ := id hc
    rw [h.1 k v hv hc, h'.1 k v hv hc]
  · rw [h.2 k hc, h'.2 k hc]

/-! ## Entering the values -/

theorem set_iff {k : String} {v : Json K} : (∃ d', d.set k v = .ok d') ↔ Editable d := by
  unfold Json.set Editable
  cases d <;> simp

theorem set_editable {k : String} {v : Json K} (h : d.set k v = .ok d') : Editable d' := by
  unfold Json.set at h
  cases d <;> simp only [reduceCtorEq] at h
  · exact .inr ⟨_, (Except.ok.inj h).symm⟩
  · exact .inr ⟨_, (Except.ok.inj h).symm⟩

theorem updKey_ok {s : Upd K} {k : String} {v : Json K} (h : Editable s.data ∨ chg E s.data (k, v) = false) :
    ∃ s', updKey E s k v = .ok s' ∧ (Editable s.data → Editable s'.data) := by
  have key : ∀ b : Bool, Editable s.data → ∃ s' : Upd K, (do
      let d ← s.data.set k v
      .ok ⟨d, true, b⟩ : C (Upd K)) = .ok s' ∧ (Editable s.data → Editable s'.data) := fun b he => by
    obtain ⟨d', hd⟩ := set_iff (k := k) (v := v) |>.2 he
    rw [hd]
    exact ⟨_, rfl, fun _ => set_editable hd⟩
  unfold updKey
  unfold chg at h
  dsimp only at h
  cases hf : s.data.find k with
  | none =>
    simp only [hf] at h ⊢
    split
    · exact ⟨s, rfl, id⟩
    · next hn =>
      refine key _ (h.resolve_right fun hc => ?_)
      simp_all
  | some cur =>
    simp only [hf] at h ⊢
    split
    · exact ⟨s, rfl, id⟩
    · next hn =>
      refine key _ (h.resolve_right fun hc => ?_)
      simp_all

theorem updKeys_ok {l : List (String × Json K)} {s : Upd K} (h : Editable s.data ∨ ∀ p ∈ l, chg E s.data p = false) :
    ∃ s', updKeys E l s = .ok s' := by
  induction l generalizing s with
  | nil => exact ⟨s, rfl⟩
  | cons p l ih =>
    obtain ⟨k, v⟩ := p
    rcases h with h | h
    · obtain ⟨s', h1, h2⟩ := updKey_ok (k := k) (v := v) (E := E) (.inl h)
      obtain ⟨s'', h3⟩ := ih (.inl (h2 h))
      exact ⟨s'', by unfold updKeys; rw [h1, ok_bind, h3]⟩
    · have hk := h (k, v) (List.mem_cons_self ..)
      obtain ⟨s', h1, _⟩ := updKey_ok (k := k) (v := v) (E := E) (.inr hk)
      rcases updKey_inv h1 with ⟨_, rfl⟩ | ⟨hc, _⟩
      · obtain ⟨s'', h3⟩ := ih (.inr fun p hp => h p (List.mem_cons_of_mem _ hp))
        exact ⟨s'', by unfold updKeys; rw [h1, ok_bind, h3]⟩
      · rw [hk] at hc; cases hc

theorem updKeys_editable {l : List (String × Json K)} {s s' : Upd K} (h : updKeys E l s = .ok s') :
    s' = s ∨ Editable s.data := by
  induction l generalizing s with
  | nil => exact .inl (Except.ok.inj h).symm
  | cons p l ih =>
    obtain ⟨k, v⟩ := p
    unfold updKeys at h
    obtain ⟨s1, h1, h2⟩ := bind_eq_ok.1 h
    rcases updKey_inv h1 with ⟨_, rfl⟩ | ⟨_, _, _, hs⟩
    · exact ih h2
    · exact .inr (set_iff.1 ⟨_, hs⟩)

theorem updKeys_quiet {l : List (String × Json K)} {s : Upd K} : updKeys E l s ≠ .error .thrown := by
  have q : ∀ (s : Upd K) (k : String) (v : Json K), updKey E s k v ≠ .error .thrown := by
    intro s k v h
    have q' : s.data.set k v ≠ .error .thrown := by
      unfold Json.set
      split <;> exact (fun h => nomatch h)
    unfold updKey at h
    split at h <;> split at h
    · cases h
    · cases hs : s.data.set k v with
      | ok d => rw [hs] at h; cases h
      | error f => rw [hs] at h; cases h; exact q' hs
    · cases h
    · cases hs : s.data.set k v with
      | ok d => rw [hs] at h; cases h
      | error f => rw [hs] at h; cases h; exact q' hs
  induction l generalizing s with
  | nil => exact fun h => nomatch h
  | cons p l ih =>
    intro h
    unfold updKeys at h
    cases hk : updKey E s p.1 p.2 with
    | ok s' => rw [hk, ok_bind] at h; exact ih h
    | error f =>
      rw [hk, error_bind] at h
      cases h
      exact q _ _ _ hk

theorem fromDoc_head {c' : Cfg K} (F : FromDoc E d c) (F' : FromDoc E d c') :
    c'.verbose = c.verbose ∧ c'.mode = c.mode := by
  obtain ⟨v, h1, h2⟩ := F.verbose
  obtain ⟨v', h1', h2'⟩ := F'.verbose
  obtain ⟨m, h3, h4⟩ := F.mode
  obtain ⟨m', h3', h4'⟩ := F'.mode
  rw [h1] at h1'
  rw [h3] at h3'
  cases h1'
  cases h3'
  rw [h2] at h2'
  rw [h4] at h4'
  exact ⟨(Json.bool.inj h2').symm, modeName_inj (Json.str.inj h4').symm⟩

theorem updateCfg_patched {r : World K × Bool × Bool} (hk : DistinctKeys j) (h : updateCfg E j w = .ok r) :
    Patched E w.data j r.1.data := by
  obtain ⟨_, _, _, _, _, _, _, h1, h2⟩ := updateCfg_inv hk h
  exact ⟨h2, h1⟩

/-- When `update_cfg` returns. -/
theorem updateCfg_iff (hk : DistinctKeys j) (hp : Patched E w.data j d) : (∃ r, updateCfg E j w = .ok r) ↔
    ((∃ k, Changes E w.data j k) → Editable w.data ∧ ∃ c : Cfg K, FromDoc E d c ∧ Admissible c ∧
      (c.digitalOnly = false → c.adcType ≠ .inf → w.cfg.resolution ≠ -1)) := by
  constructor
  · rintro ⟨r, h⟩ hc
    have hpp := updateCfg_patched hk h
    obtain ⟨_, _, _, h1, _, h2, _⟩ := updateCfg_inv hk h
    have h3 := h2 (h1.2 hc)
    refine ⟨?_, _, fromDoc_find (patched_find hk hpp hp) (loaded_of h3), applyConfig_ok h3, resolution_of h3⟩
    unfold updateCfg at h
    rw [rbind_ok] at h
    obtain ⟨s, h4, h⟩ := h
    rw [lift_ok] at h4
    rcases updKeys_editable h4 with rfl | he
    · simp only [Bool.false_eq_true, if_false] at h
      rw [rok_inj] at h
      subst h
      have := h1.2 hc
      cases this
    · exact he
  · intro hc
    by_cases hm : ∃ k, Changes E w.data j k
    · obtain ⟨he, c, F, A, hr⟩ := hc hm
      obtain ⟨s, hs⟩ := updKeys_ok (E := E) (l := j.items) (s := ⟨w.data, false, false⟩) (.inl he)
      obtain ⟨i1, _, i3, _, i5⟩ := updKeys_inv hk hs
      rw [modified_iff.2 hm] at i1
      have hpp : Patched E w.data j s.data := by
        refine ⟨fun k v hv hc => ?_, fun k hc => i3 k fun v hv => not_changes hc hv⟩
        obtain ⟨v', hm', hc'⟩ := changes_iff.1 hc
        have : v' = v := by
          have hn := hk
          unfold DistinctKeys at hn
          exact (Prod.ext_iff.1 (List.inj_on_of_nodup_map hn hm' hv rfl)).2
        exact i5 k v hv (this ▸ hc')
      obtain ⟨c', h⟩ := accepted_of (c := w.cfg) (fromDoc_find (patched_find hk hp hpp) F) A hr
      unfold updateCfg
      rw [hs]
      refine ⟨({ w with cfg := c', data := s.data }, true, s.recreate), ?_⟩
      show (if s.modified = true then _ else _) = _
      rw [if_pos (show s.modified = true from i1), h]
      rfl
    · obtain ⟨s, hs⟩ := updKeys_ok (E := E) (l := j.items) (s := ⟨w.data, false, false⟩)
        (.inr fun p hp => not_changes (fun hc => hm ⟨_, hc⟩) hp)
      obtain ⟨_, _, _, i4, _⟩ := updKeys_inv hk hs
      have := i4 fun p hp => not_changes (fun hc => hm ⟨_, hc⟩) hp
      subst this
      unfold updateCfg
      rw [hs]
      exact ⟨_, rfl⟩

theorem newXbar_iff : (∃ x, newXbar E w = .ok x) ↔ Buildable E w.cfg w.cfg := by
  unfold newXbar
  rw [← mkXbar_iff (rng := w.drop.rng) (hs := w.drop.hists)]
  exact exists_congr fun x => lift_ok

/-- When `update_config` returns. -/
theorem updateConfig_iff (hk : DistinctKeys j) (hx : w.xbar ≠ none) (hp : Patched E w.data j d) :
    (∃ r, updateConfig E (.good j) w = .ok r) ↔
      ((∃ k, Changes E w.data j k) → Editable w.data ∧ ∃ c : Cfg K, FromDoc E d c ∧ Admissible c ∧
        (c.digitalOnly = false → c.adcType ≠ .inf → w.cfg.resolution ≠ -1) ∧
        ((∃ k, structural k ∧ Changes E w.data j k) →
          Buildable E w.cfg c ∧ (c.verbose = false ∨ c.mode.family = .int))) := by
  obtain ⟨x, hx⟩ := Option.ne_none_iff_exists'.1 hx
  have hU : updateConfig E (.good j) w = (do
      let r ← updateCfg E j w
      if r.2.1 && r.2.2 then do
        let x ← newXbar E r.1
        release r.1
        .ok ({ r.1.drop with xbar := some x }, 0)
      else .ok (r.1, 0) : R K (World K × Int)) := by
    unfold updateConfig
    rw [hx]
  rw [hU]
  constructor
  · rintro ⟨r, h⟩ hc
    rw [rbind_ok] at h
    obtain ⟨q, h1, h⟩ := h
    obtain ⟨he, c, F, A, hr⟩ := (updateCfg_iff hk hp).1 ⟨q, h1⟩ hc
    have hpp := updateCfg_patched hk h1
    obtain ⟨_, _, _, h2, h3, h4, _⟩ := updateCfg_inv hk h1
    have h5 := h4 (h2.2 hc)
    refine ⟨he, q.1.cfg, fromDoc_find (patched_find hk hpp hp) (loaded_of h5), applyConfig_ok h5, resolution_of h5,
      fun hs => ?_⟩
    rw [if_pos (by rw [h2.2 hc, h3.2 hs]; rfl), rbind_ok] at h
    obtain ⟨x', h6, h⟩ := h
    rw [rbind_ok] at h
    obtain ⟨_, h7, _⟩ := h
    refine ⟨(buildable_stale h5).1 (newXbar_iff.1 ⟨x', h6⟩), ?_⟩
    have hxq : q.1.xbar = some x := by
      rw [← hx]
      exact (updateCfg_inv hk h1).1
    rcases release_iff.1 h7 with h8 | h8
    · rw [hxq] at h8; cases h8
    · exact h8
  · intro hc
    obtain ⟨q, h1⟩ := (updateCfg_iff hk hp).2 fun hm => by
      obtain ⟨he, c, F, A, hr, _⟩ := hc hm
      exact ⟨he, c, F, A, hr⟩
    have hpp := updateCfg_patched hk h1
    obtain ⟨_, _, _, h2, h3, h4, _⟩ := updateCfg_inv hk h1
    by_cases hb : (q.2.1 && q.2.2) = true
    · have hb' := (Bool.and_eq_true ..).mp hb
      obtain ⟨_, c, F, A, hr, hs⟩ := hc (h2.1 hb'.1)
      obtain ⟨B, hv⟩ := hs (h3.1 hb'.2)
      have h5 := h4 hb'.1
      have F' := fromDoc_find (patched_find hk hpp hp) (loaded_of h5)
      have S := fromDoc_unique F A F' (applyConfig_ok h5)
      have B' := buildable_alike S (fun hd => (fromDoc_switches F F' hd).1) B
      obtain ⟨x', hx'⟩ := newXbar_iff.2 ((buildable_stale h5).2 B')
      have h7 : release q.1 = .ok () := by
        refine release_iff.2 (.inr ?_)
        have e := fromDoc_head F F'
        rw [e.1, e.2]
        exact hv
      refine ⟨({ q.1.drop with xbar := some x' }, 0), rbind_ok.2 ⟨q, h1, ?_⟩⟩
      rw [if_pos hb]
      exact rbind_ok.2 ⟨x', hx', rbind_ok.2 ⟨(), h7, rfl⟩⟩
    · refine ⟨(q.1, 0), rbind_ok.2 ⟨q, h1, ?_⟩⟩
      rw [if_neg hb]

/-- The only updates that end with an exception. -/
theorem updateConfig_exception (hk : DistinctKeys j) (hp : Patched E w.data j d)
    (h : updateConfig E (.good j) w = .error (.threw w')) :
    w'.xbar = w.xbar ∧ FromDoc E d w'.cfg ∧ Patched E w.data j w'.data ∧ w'.cfg.digitalOnly = false ∧
      w'.cfg.parasitics = true ∧ w'.cfg.mode = .iTcWDiff := by
  unfold updateConfig at h
  split at h
  · cases h
  · dsimp only at h
    rcases rbind_err.1 h with h | ⟨q, hq, h⟩
    · unfold updateCfg at h
      rcases rbind_err.1 h with h | ⟨s, hs, h⟩
      · have := (lift_threw h).1
        exact absurd this updKeys_quiet
      · split at h
        · rcases rbind_err.1 h with h | ⟨_, _, h⟩
          · have R := refuse_apply (E := E) (j := s.data) (c := w.cfg)
            rw [(lift_threw h).1] at R
            rcases R with R | R <;> cases R
          · cases h
        · cases h
    · have hpp := updateCfg_patched hk hq
      obtain ⟨hx, _, _, _, _, h4, _⟩ := updateCfg_inv hk hq
      split at h
      · next hb =>
        have h5 := h4 ((Bool.and_eq_true ..).mp hb).1
        rcases rbind_err.1 h with h | ⟨_, _, h⟩
        · obtain ⟨h1, h2⟩ := lift_threw h
          subst h2
          have := mkXbar_thrown.1 h1
          exact ⟨hx, fromDoc_find (patched_find hk hpp hp) (loaded_of h5), hpp, this.2⟩
        · rcases rbind_err.1 h with h | ⟨_, _, h⟩
          · unfold release at h
            split at h
            · cases h
            · have := (lift_threw h).1
              unfold destroyXbar at this
              repeat' split at this
              all_goals cases this
          · cases h
      · cases h

end

end Acs
