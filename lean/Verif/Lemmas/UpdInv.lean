import Verif.Lemmas.ApplyTwice

/-! # What `update_cfg` changes -/

set_option linter.unusedSectionVars false

namespace Acs

open Spec

section
variable {K : Type} [Field K] [LinearOrder K] [IsStrictOrderedRing K] [FloorRing K]
variable {E : Env K} {j j' v : Json K} {k k' : String} {s s' : Upd K} {w w' : World K}

/-- The loop of `update_cfg` writes this pair. -/
def chg (E : Env K) (data : Json K) (p : String × Json K) : Bool :=
  match data.find p.1 with
  | none => !p.2.isNull
  | some cur => !cur.same E p.2

theorem changes_iff {data upd : Json K} : Changes E data upd k ↔
    ∃ v, (k, v) ∈ upd.items ∧ chg E data (k, v) = true := by
  unfold Changes chg
  refine exists_congr fun v => and_congr_right fun _ => ?_
  dsimp only
  cases data.find k <;> simp

theorem not_changes {data upd : Json K} (h : ¬Changes E data upd k) {v : Json K}
    (hm : (k, v) ∈ upd.items) : chg E data (k, v) = false := by
  by_contra hc
  exact h (changes_iff.2 ⟨v, hm, by simpa using hc⟩)

theorem setMember_find (l : List (String × Json K)) : (setMember k v l).lookup k' =
    if k' = k then some v else l.lookup k' := by
  induction l with
  | nil =>
    simp only [setMember, List.lookup]
    by_cases h : k' = k
    · simp [h]
    · rw [beq_eq_false_iff_ne.2 h, if_neg h]
  | cons p l ih =>
    obtain ⟨a, b⟩ := p
    simp only [setMember]
    by_cases ha : a = k
    · rw [if_pos ha]
      subst ha
      simp only [List.lookup]
      by_cases h : k' = a
      · simp [h]
      · rw [beq_eq_false_iff_ne.2 h, if_neg h]
    · rw [if_neg ha]
      simp only [List.lookup, ih]
      by_cases h : k' = a
      · subst h; simp [ha]
      · have hb : (k' == a) = false := by simpa using h
        rw [hb]

theorem set_find (h : j.set k v = .ok j') (k' : String) :
    j'.find k' = if k' = k then some v else j.find k' := by
  unfold Json.set at h
  split at h
  · rw [← ok_inj.1 h]
    exact setMember_find (k := k) (v := v) []
  · rw [← ok_inj.1 h]
    exact setMember_find _
  · cases h

theorem updKey_inv (h : updKey E s k v = .ok s') :
    (chg E s.data (k, v) = false ∧ s' = s) ∨
    (chg E s.data (k, v) = true ∧ s'.modified = true ∧
      s'.recreate = (s.recreate || recreationKeys.contains k) ∧ s.data.set k v = .ok s'.data) := by
  unfold updKey at h
  unfold chg
  dsimp only
  split at h
  · next hn =>
    rw [hn]
    split at h
    · next hv => exact Or.inl ⟨by simp [hv], (ok_inj.1 h).symm⟩
    · next hv =>
      rw [bind_eq_ok] at h
      obtain ⟨d, h1, h⟩ := h
      rw [← ok_inj.1 h]
      exact Or.inr ⟨by simpa using hv, rfl, rfl, h1⟩
  · next c hn =>
    rw [hn]
    split at h
    · next hv => exact Or.inl ⟨by simp [hv], (ok_inj.1 h).symm⟩
    · next hv =>
      rw [bind_eq_ok] at h
      obtain ⟨d, h1, h⟩ := h
      rw [← ok_inj.1 h]
      exact Or.inr ⟨by simpa using hv, rfl, rfl, h1⟩

theorem chg_congr {d d' : Json K} {p : String × Json K} (h : d'.find p.1 = d.find p.1) :
    chg E d' p = chg E d p := by
  unfold chg
  rw [h]

theorem updKeys_inv {l : List (String × Json K)} (hn : (l.map Prod.fst).Nodup)
    (h : updKeys E l s = .ok s') :
    s'.modified = (s.modified || l.any (chg E s.data)) ∧
    s'.recreate = (s.recreate || l.any fun p => chg E s.data p && recreationKeys.contains p.1) ∧
    (∀ k, (∀ v, (k, v) ∈ l → chg E s.data (k, v) = false) → s'.data.find k = s.data.find k) ∧
    ((∀ p ∈ l, chg E s.data p = false) → s' = s) ∧
    (∀ k v, (k, v) ∈ l → chg E s.data (k, v) = true → s'.data.find k = some v) := by
  induction l generalizing s with
  | nil =>
    rw [updKeys, ok_inj] at h
    subst h
    simp
  | cons p l ih =>
    obtain ⟨k, v⟩ := p
    rw [updKeys, bind_eq_ok] at h
    obtain ⟨t, h1, h⟩ := h
    simp only [List.map_cons, List.nodup_cons] at hn
    obtain ⟨i1, i2, i3, i4, i5⟩ := ih hn.2 h
    have hk : ∀ p ∈ l, p.1 ≠ k := fun p hp e => hn.1 (e ▸ List.mem_map_of_mem hp)
    rcases updKey_inv h1 with ⟨hc, rfl⟩ | ⟨hc, hm, hr, hs⟩
    · refine ⟨by rw [i1]; simp [hc], by rw [i2]; simp [hc], fun k' hk' => ?_, fun ha => ?_,
        fun k' v' hv hc' => ?_⟩
      · exact i3 k' fun v' hv => hk' v' (List.mem_cons_of_mem _ hv)
      · exact i4 fun p hp => ha p (List.mem_cons_of_mem _ hp)
      · rcases List.mem_cons.1 hv with e | hv
        · rw [e, hc] at hc'; cases hc'
        · exact i5 k' v' hv hc'
    · have hf : ∀ p ∈ l, chg E t.data p = chg E s.data p := fun p hp =>
        chg_congr (by rw [set_find hs, if_neg (hk p hp)])
      have e1 : l.any (chg E t.data) = l.any (chg E s.data) := by
        rw [Bool.eq_iff_iff, List.any_eq_true, List.any_eq_true]
        exact exists_congr fun p => and_congr_right fun hp => by rw [hf p hp]
      have e2 : (l.any fun p => chg E t.data p && recreationKeys.contains p.1) =
          l.any fun p => chg E s.data p && recreationKeys.contains p.1 := by
        rw [Bool.eq_iff_iff, List.any_eq_true, List.any_eq_true]
        exact exists_congr fun p => and_congr_right fun hp => by rw [hf p hp]
      refine ⟨by rw [i1, hm]; simp [hc], ?_, fun k' hk' => ?_, fun ha => ?_, fun k' v' hv hc' => ?_⟩
      · rw [i2, hr, e2]
        simp [hc, Bool.or_assoc]
      · have hne : k' ≠ k := fun e => by
          have := hk' v (by rw [e]; exact List.mem_cons_self ..)
          rw [e, hc] at this
          cases this
        rw [i3 k' fun v' hv => ?_, set_find hs, if_neg hne]
        rw [hf _ hv]
        exact hk' v' (List.mem_cons_of_mem _ hv)
      · have := ha (k, v) (List.mem_cons_self ..)
        rw [hc] at this
        cases this
      · rcases List.mem_cons.1 hv with e | hv
        · cases e
          rw [i3 k fun v' hv' => absurd rfl (hk _ hv'), set_find hs, if_pos rfl]
        · exact i5 k' v' hv (by rw [hf _ hv]; exact hc')

theorem recreate_iff {data upd : Json K} :
    (upd.items.any fun p => chg E data p && recreationKeys.contains p.1) = true ↔
      ∃ k, structural k ∧ Changes E data upd k := by
  rw [List.any_eq_true]
  constructor
  · rintro ⟨⟨k, v⟩, hm, hp⟩
    rw [Bool.and_eq_true] at hp
    exact ⟨k, structural_of hp.2, changes_iff.2 ⟨v, hm, hp.1⟩⟩
  · rintro ⟨k, hs, hc⟩
    obtain ⟨v, hm, hc⟩ := changes_iff.1 hc
    refine ⟨(k, v), hm, ?_⟩
    rw [Bool.and_eq_true]
    exact ⟨hc, structural_iff.1 hs⟩

theorem modified_iff {data upd : Json K} :
    (upd.items.any (chg E data)) = true ↔ ∃ k, Changes E data upd k := by
  rw [List.any_eq_true]
  constructor
  · rintro ⟨⟨k, v⟩, hm, hp⟩
    exact ⟨k, changes_iff.2 ⟨v, hm, hp⟩⟩
  · rintro ⟨k, hc⟩
    obtain ⟨v, hm, hc⟩ := changes_iff.1 hc
    exact ⟨(k, v), hm, hc⟩

/-! ## Interface calls -/

theorem lift_ok {α : Type} {x : C α} {a : α} : lift w x = .ok a ↔ x = .ok a := by
  unfold lift
  constructor
  · intro h
    split at h
    · rw [Except.ok.injEq] at h; rw [h]
    · cases h
    · cases h
  · rintro rfl; rfl

theorem rbind_ok {α β : Type} {x : R K α} {f : α → R K β} {b : β} :
    (x >>= f) = .ok b ↔ ∃ a, x = .ok a ∧ f a = .ok b := by
  cases x with
  | error e => exact ⟨fun h => (nomatch h), fun ⟨_, h, _⟩ => (nomatch h)⟩
  | ok a => exact ⟨fun h => ⟨a, rfl, h⟩, fun ⟨_, h, h'⟩ => by cases h; exact h'⟩

theorem rok_inj {α : Type} {a b : α} : ((.ok a : R K α) = .ok b) ↔ a = b := by
  rw [Except.ok.injEq]

/-- `update_cfg` when it returns. -/
theorem updateCfg_inv {r : World K × Bool × Bool} (hk : DistinctKeys j)
    (h : updateCfg E j w = .ok r) :
    r.1.xbar = w.xbar ∧ r.1.rng = w.rng ∧ r.1.hists = w.hists ∧
    (r.2.1 = true ↔ ∃ k, Changes E w.data j k) ∧
    (r.2.2 = true ↔ ∃ k, structural k ∧ Changes E w.data j k) ∧
    (r.2.1 = true → applyConfig E r.1.data w.cfg = .ok r.1.cfg) ∧
    (r.2.1 = false → r.1 = w) ∧
    (∀ k, ¬Changes E w.data j k → r.1.data.find k = w.data.find k) ∧
    (∀ k v, (k, v) ∈ j.items → Changes E w.data j k → r.1.data.find k = some v) := by
  unfold updateCfg at h
  rw [rbind_ok] at h
  obtain ⟨s, h1, h⟩ := h
  rw [lift_ok] at h1
  obtain ⟨i1, i2, i3, i4, i5⟩ := updKeys_inv hk h1
  simp only [Bool.false_or] at i1 i2
  have hfind : ∀ k, ¬Changes E w.data j k → s.data.find k = w.data.find k :=
    fun k hc => i3 k fun v hv => not_changes hc hv
  have hset : ∀ k v, (k, v) ∈ j.items → Changes E w.data j k → s.data.find k = some v :=
    fun k v hm hc => by
      obtain ⟨v', hm', hc'⟩ := changes_iff.1 hc
      have : v' = v := by
        have hn := hk
        unfold DistinctKeys at hn
        exact (Prod.ext_iff.1 (List.inj_on_of_nodup_map hn hm' hm rfl)).2
      exact i5 k v hm (this ▸ hc')
  split at h
  · next hm =>
    rw [rbind_ok] at h
    obtain ⟨c, h2, h⟩ := h
    rw [lift_ok] at h2
    rw [rok_inj] at h
    subst h
    rw [hm] at i1
    refine ⟨rfl, rfl, rfl, ⟨fun _ => modified_iff.1 i1.symm, fun _ => rfl⟩, ?_, fun _ => h2,
      fun e => (nomatch e), hfind, hset⟩
    show s.recreate = true ↔ _
    rw [i2]
    exact recreate_iff
  · next hm =>
    rw [rok_inj] at h
    subst h
    rw [Bool.not_eq_true] at hm
    rw [hm] at i1
    have hno : ∀ p ∈ j.items, chg E w.data p = false := by
      intro p hp
      by_contra hc
      have : j.items.any (chg E w.data) = true := List.any_eq_true.2 ⟨p, hp, by simpa using hc⟩
      rw [this] at i1
      cases i1
    have hs := i4 hno
    subst hs
    refine ⟨rfl, rfl, rfl, ⟨fun e => (nomatch e), fun hc => ?_⟩, ?_, fun e => (nomatch e), fun _ => rfl,
      hfind, hset⟩
    · rw [modified_iff.2 hc] at i1; cases i1
    · rw [← recreate_iff, ← i2]

end

end Acs
