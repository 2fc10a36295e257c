import Verif.SpecBuild
import Verif.Lemmas.Same
import Verif.Lemmas.Split
import Verif.Lemmas.ApplyTwice

/-! # Which crossbars can be built -/

set_option linter.unusedSectionVars false

namespace Acs

open Finset Spec

section
variable {K : Type} [Field K] [LinearOrder K] [IsStrictOrderedRing K] [FloorRing K]
variable {E : Env K} {cfg : Cfg K}

theorem wrap32_mod (a : Int) : wrap32 a % 4294967296 = a % 4294967296 := by
  unfold wrap32
  omega

theorem shiftsFrom_mod (l : List Nat) {v w : Int} (h : v % 4294967296 = w % 4294967296) {s : Nat} (hs : s < l.length) :
    (shiftsFrom v l).getD s 0 = ((w - (l.take (s + 1)).sum) % 4294967296).toNat := by
  induction l generalizing v w s with
  | nil => simp at hs
  | cons a t ih =>
    cases s with
    | zero =>
      simp only [shiftsFrom, List.getD_cons_zero, zero_add, List.take_succ_cons, List.take_zero, List.sum_cons, List.sum_nil]
      push_cast
      omega
    | succ s =>
      simp only [shiftsFrom, List.getD_cons_succ]
      rw [ih (v := wrap32 (v - a)) (w := w - a) (by rw [wrap32_mod]; omega) (by simpa using hs), List.take_succ_cons,
        List.sum_cons]
      push_cast
      congr 2
      ring

/-- The shifts of the mapper. -/
theorem mapper_shift (cfg : Cfg K) {s : Nat} (hs : s < cfg.S) :
    (shiftsFrom (wrap32 cfg.wBit) cfg.split).getD s 0 = wrappedShift cfg s :=
  shiftsFrom_mod _ (wrap32_mod _) hs

theorem mkAdc_iff : (∃ a, mkAdc cfg = .ok a) ↔ cfg.resolution ≤ 30 := by
  unfold mkAdc adcSteps
  constructor
  · rintro ⟨a, h⟩
    by_contra hc
    rw [if_neg (by omega), if_neg hc, error_bind] at h
    cases h
  · intro h
    have sub : ∀ st : Int, 0 ≤ st → st ≤ 1073741824 → ∃ a, (match cfg.adcType with
        | .inf => .ok ⟨.inf, st⟩
        | .pos => .ok ⟨.pos, st⟩
        | .sym => do
          let st' ← subI st 1
          .ok ⟨.sym, st'⟩ : C Adc) = .ok a := fun st h0 h1 => by
      cases cfg.adcType with
      | inf => exact ⟨_, rfl⟩
      | pos => exact ⟨_, rfl⟩
      | sym =>
        refine ⟨⟨.sym, st - 1⟩, ?_⟩
        dsimp only
        rw [subI_eq_ok.2 ⟨by constructor <;> omega, rfl⟩, ok_bind]
    by_cases h0 : cfg.resolution < 0
    · rw [if_pos h0, ok_bind]
      exact sub 0 (by omega) (by omega)
    · rw [if_neg h0, if_pos h, ok_bind]
      refine sub _ (by positivity) ?_
      have : (2 : Int) ^ cfg.resolution.toNat ≤ 2 ^ 30 := pow_le_pow_right₀ (by norm_num) (by omega)
      linarith

theorem optSolver_iff : (∃ p, optSolver cfg = .ok p) ↔
    (cfg.digitalOnly = false → cfg.parasitics = true → cfg.mode ≠ .iTcWDiff) := by
  unfold optSolver mkSolver
  cases cfg.digitalOnly <;> cases cfg.parasitics <;> simp
  cases cfg.mode <;> simp [Mode.wEnc]

theorem maskOf_iff {st : Bool} {k : Nat} : (∃ c, maskOf st k = .ok c) ↔ k ≤ 30 :=
  ⟨fun ⟨_, h⟩ => maskOf_inv h, fun h => ⟨_, maskOf_ok h⟩⟩

theorem getD_mem_iff {l : List Nat} : (∀ s, s < l.length → l.getD s 0 ≤ 30) ↔ ∀ s ∈ l, s ≤ 30 := by
  constructor
  · intro h s hs
    obtain ⟨i, hi, e⟩ := List.getElem_of_mem hs
    rw [← e, ← List.getD_eq_getElem _ 0 hi]
    exact h i hi
  · intro h s hs
    rw [List.getD_eq_getElem _ _ hs]
    exact h _ (List.getElem_mem hs)

theorem stepSizes_iff {iMM : K} {l : List Nat} : (∃ v, stepSizes E iMM l = .ok v) ↔ ∀ s ∈ l, s ≤ 30 := by
  rw [← getD_mem_iff]
  unfold stepSizes
  constructor
  · rintro ⟨v, h⟩ s hs
    have := ((setG_inv h).2 s hs).2
    rw [bind_eq_ok] at this
    obtain ⟨c, h1, _⟩ := this
    exact maskOf_inv h1
  · intro h
    exact ⟨_, setG_ok (fun s => fieldDiv E iMM (E.ofInt (2 ^ l.getD s 0 - 1))) (le_refl _) fun i hi => by
      rw [maskOf_ok (h i hi), ok_bind]⟩

theorem shl32 {st : Bool} {k : Nat} {a : Int} : shlI st 1 k = .ok a ↔ k < 32 ∧ a = pow32 k := by
  unfold shlI pow32
  by_cases hk : k < 32
  · have h1 : (2 : Int) ^ k ≤ 2 ^ 31 := pow_le_pow_right₀ (by norm_num) (by omega)
    rw [if_pos hk, if_neg (by norm_num), if_pos (by rw [one_mul]; linarith), ok_inj, one_mul]
    have e : wrap32 (2 ^ k) = if k = 31 then -2147483648 else 2 ^ k := by
      split
      · next h => subst h; decide
      · next h =>
        have h2 : (2 : Int) ^ k ≤ 2 ^ 30 := pow_le_pow_right₀ (by norm_num) (by omega)
        have h3 : (0 : Int) < 2 ^ k := by positivity
        exact wrap32_id (by constructor <;> linarith)
    rw [e]
    exact ⟨fun h => ⟨hk, h.symm⟩, fun h => h.2.symm⟩
  · rw [if_neg hk]
    exact ⟨(fun h => nomatch h), fun h => absurd h.1 hk⟩

theorem deltaOf_iff {iMM : K} (hs : ∀ s ∈ cfg.split, s ≤ 30) :
    (∃ d, deltaOf E cfg iMM (Vec.ofList (shiftsFrom (wrap32 cfg.wBit) cfg.split)) = .ok d) ↔
      ∀ s, s < cfg.split.length → SliceFits cfg s := by
  have hlen : (Vec.ofList (shiftsFrom (wrap32 cfg.wBit) cfg.split)).size = cfg.split.length := shiftsFrom_length _ _
  have hget : ∀ s, s < cfg.split.length →
      (Vec.ofList (shiftsFrom (wrap32 cfg.wBit) cfg.split)).get s = wrappedShift cfg s := fun s h => mapper_shift cfg h
  have hs' := getD_mem_iff.2 hs
  unfold deltaOf
  constructor
  · rintro ⟨d, h⟩
    rw [bind_eq_ok] at h
    obtain ⟨q, h, _⟩ := h
    refine loop_all (P := fun s => SliceFits cfg s) (fun s hs a b h => ?_) h
    rw [bind_eq_ok] at h
    obtain ⟨sh, h1, h⟩ := h
    rw [bind_eq_ok] at h
    obtain ⟨p, h2, h⟩ := h
    rw [bind_eq_ok] at h
    obtain ⟨mk, h3, h⟩ := h
    rw [bind_eq_ok] at h
    obtain ⟨z, h4, _⟩ := h
    rw [maskOf_ok (hs' s hs), ok_inj] at h3
    have e := rd_get h1
    rw [hget s hs] at e
    subst e h3
    obtain ⟨k1, rfl⟩ := shl32.1 h2
    have := (mulI_eq_ok.1 h4).1
    exact ⟨k1, by unfold InI32 at this; exact ⟨this.1, by linarith [this.2]⟩⟩
  · intro H
    have key : ∀ n, n ≤ cfg.split.length → ∀ d : K, ∃ d', loop n (fun i d => do
        let sh ← (Vec.ofList (shiftsFrom (wrap32 cfg.wBit) cfg.split)).rd i
        let a ← shlI E.strict 1 sh
        let mk ← maskOf E.strict (cfg.split.getD i 0)
        let p ← mulI a mk
        .ok (E.fadd d (E.ofInt p))) d = .ok d' := by
      intro n
      induction n with
      | zero => exact fun _ d => ⟨d, rfl⟩
      | succ n ih =>
        intro hn d
        obtain ⟨d1, h1⟩ := ih (by omega) d
        have hf := H n (by omega)
        refine ⟨E.fadd d1 (E.ofInt (pow32 (wrappedShift cfg n) * (2 ^ cfg.split.getD n 0 - 1))), ?_⟩
        rw [loop_succ, h1, ok_bind, Vec.rd_ok (by rw [hlen]; omega), ok_bind, hget n (by omega),
          shl32.2 ⟨hf.1, rfl⟩, ok_bind, maskOf_ok (hs' n (by omega)), ok_bind,
          mulI_eq_ok.2 ⟨by have := hf.2; unfold InI32; constructor <;> linarith [this.1, this.2], rfl⟩, ok_bind]
    obtain ⟨d, h⟩ := key cfg.S (le_refl _) 0
    exact ⟨_, by rw [h, ok_bind]⟩

theorem usesShift_iff : (cfg.mode.isInt || cfg.mode == .tnn4) = true ↔ cfg.mode.family = .int ∨ cfg.mode = .tnn4 := by
  rw [Bool.or_eq_true, isInt_iff, beq_iff_eq]

theorem mkCore_iff : (∃ c, mkCore E cfg = .ok c) ↔ cfg.resolution ≤ 30 ∧
    (cfg.digitalOnly = false → cfg.parasitics = true → cfg.mode ≠ .iTcWDiff) ∧
    (cfg.mode.family = .int ∨ cfg.mode = .tnn4 → ∀ s ∈ cfg.split, s ≤ 30) ∧
    (cfg.mode = .iUintWOffs → ∀ s, s < cfg.split.length → SliceFits cfg s) ∧
    (E.strict = true → cfg.digitalOnly = true → (cfg.mode.family = .int ∨ cfg.mode = .tnn4 → cfg.split = []) ∧
      cfg.mode ≠ .iUintWOffs) := by
  constructor
  · rintro ⟨c, h⟩
    obtain ⟨_, _, _, _, hsh, _, _, hst, ha, hp, hd⟩ := mkCore_inv h
    have hsl : cfg.mode.family = .int ∨ cfg.mode = .tnn4 → ∀ s ∈ cfg.split, s ≤ 30 := fun hu => by
      rw [if_pos (usesShift_iff.2 hu)] at hst
      exact stepSizes_iff.1 ⟨_, hst⟩
    refine ⟨mkAdc_iff.1 ⟨_, ha⟩, optSolver_iff.1 ⟨_, hp⟩, hsl, fun hm => ?_, fun h1 h2 => ⟨fun hu => ?_, fun hm => ?_⟩⟩
    · unfold optDelta at hd
      rw [if_pos hm] at hd
      split at hd
      · cases hd
      · rw [hsh, if_pos (usesShift_iff.2 (.inl (by rw [hm]; rfl)))] at hd
        exact (deltaOf_iff (hsl (.inl (by rw [hm]; rfl)))).1 ⟨_, hd⟩
    · unfold mkCore at h
      rw [ha, ok_bind] at h
      dsimp only at h
      rw [hp, ok_bind] at h
      by_contra hc
      rw [if_pos] at h
      · cases h
      · have : (cfg.S != 0) = true := by
          rw [bne_iff_ne]
          intro h0
          exact hc (List.length_eq_zero_iff.1 h0)
        rw [usesShift_iff.2 hu, this, h1, h2]
        rfl
    · unfold optDelta at hd
      rw [if_pos hm, if_pos (by rw [h1, h2]; rfl)] at hd
      cases hd
  · rintro ⟨h1, h2, h3, h4, h5⟩
    obtain ⟨a, ha⟩ := mkAdc_iff.2 h1
    obtain ⟨p, hp⟩ := optSolver_iff.2 h2
    unfold mkCore
    rw [ha, ok_bind]
    dsimp only
    rw [hp, ok_bind, if_neg]
    · by_cases hu : cfg.mode.family = .int ∨ cfg.mode = .tnn4
      · rw [if_pos (usesShift_iff.2 hu), if_pos (usesShift_iff.2 hu)]
        obtain ⟨v, hv⟩ := stepSizes_iff (E := E)
          (iMM := if cfg.digitalOnly = true then E.junk else E.fsub cfg.lrs cfg.hrs) |>.2 (h3 hu)
        rw [hv, ok_bind]
        unfold optDelta
        by_cases hm : cfg.mode = .iUintWOffs
        · rw [if_pos hm, if_neg]
          · obtain ⟨d, hd⟩ := deltaOf_iff (E := E)
              (iMM := if cfg.digitalOnly = true then E.junk else E.fsub cfg.lrs cfg.hrs) (h3 hu) |>.2 (h4 hm)
            rw [hd, ok_bind]
            exact ⟨_, rfl⟩
          · rw [Bool.and_eq_true]
            exact fun h => (h5 h.2 h.1).2 hm
        · rw [if_neg hm, ok_bind]
          exact ⟨_, rfl⟩
      · rw [if_neg (fun h => hu (usesShift_iff.1 h)), ok_bind]
        unfold optDelta
        rw [if_neg (fun hm => hu (.inl (by rw [hm]; rfl))), ok_bind]
        exact ⟨_, rfl⟩
    · simp only [Bool.and_eq_true, bne_iff_ne]
      rintro ⟨⟨⟨g1, g2⟩, g3⟩, g4⟩
      exact g2 (by unfold Cfg.S; rw [(h5 g4 g3).1 (usesShift_iff.1 g1)]; rfl)

theorem optRd_iff : (∃ r, optRd E cfg = .ok r) ↔ (cfg.readDisturb = true → DecayDefined E cfg.vRead) := by
  unfold optRd mkRd rdCalcP rdKbT DecayDefined decay32 thermal32 Env.fdiv
  dsimp only
  by_cases h : cfg.readDisturb = true
  · rw [if_pos h]
    by_cases h1 : E.f64 (1602176634 / 10 ^ 28) = 0
    · rw [if_pos h1]
      exact ⟨(fun ⟨_, x⟩ => nomatch x), fun x => absurd h1 (x h).1⟩
    · rw [if_neg h1, ok_bind]
      by_cases h2 : E.f32 (E.f64 (E.fmul (E.lit (138064852 / 10 ^ 31)) (E.lit 300) / E.f64 (1602176634 / 10 ^ 28))) = 0
      · rw [if_pos h2]
        exact ⟨(fun ⟨_, x⟩ => nomatch x), fun x => absurd h2 (x h).2.1⟩
      · rw [if_neg h2, ok_bind, ok_bind]
        split
        · next h3 => exact ⟨(fun ⟨_, x⟩ => nomatch x), fun x => absurd h3 (x h).2.2⟩
        · next h3 => exact ⟨fun _ _ => ⟨h1, h2, h3⟩, fun _ => ⟨_, rfl⟩⟩
  · rw [if_neg h]
    exact ⟨fun _ x => absurd x h, fun _ => ⟨_, rfl⟩⟩

theorem used_self (cfg : Cfg K) : usedResolution cfg cfg = cfg.resolution ∧
    usedDisturb cfg cfg = (cfg.readDisturb, cfg.vRead) := by
  unfold usedResolution usedDisturb
  exact ⟨by split <;> rfl, by split <;> rfl⟩

theorem mkXbar_iff {rng : Nat} {hs : List (String × Hist K)} :
    (∃ x, mkXbar E cfg rng hs = .ok x) ↔ Buildable E cfg cfg := by
  obtain ⟨u1, u2⟩ := used_self cfg
  constructor
  · rintro ⟨x, h⟩
    obtain ⟨h1, _, h2, _⟩ := mkXbar_inv h
    obtain ⟨a1, a2, a3, a4, a5⟩ := mkCore_iff.1 ⟨_, h1⟩
    exact ⟨by rw [u1]; exact a1, a2, a3, a4, a5, by rw [u2]; exact optRd_iff.1 ⟨_, h2⟩⟩
  · rintro ⟨a1, a2, a3, a4, a5, a6⟩
    rw [u1] at a1
    rw [u2] at a6
    obtain ⟨c, hc⟩ := mkCore_iff.2 ⟨a1, a2, a3, a4, a5⟩
    obtain ⟨r, hr⟩ := optRd_iff.2 a6
    exact ⟨_, by unfold mkXbar mkMapper; rw [hc, ok_bind, ok_bind, hr, ok_bind]⟩

/-! ## Configurations read from documents -/

variable {j : Json K} {old c c' : Cfg K} {w w' : World K}

theorem buildable_alike (S : SameEffective c c') (hr : c.digitalOnly = false → c'.readDisturb = c.readDisturb)
    (h : Buildable E old c) : Buildable E old c' := by
  have hres : usedResolution old c' = usedResolution old c := by
    unfold usedResolution
    rw [S.digital]
    cases hd : c.digitalOnly
    · rw [S.adcType hd]
      by_cases ht : c.adcType = .inf
      · simp [ht]
      · simp [ht, (S.adc hd ht).1]
    · simp
  have hdis : (usedDisturb old c').1 = (usedDisturb old c).1 ∧
      ((usedDisturb old c).1 = true → (usedDisturb old c').2 = (usedDisturb old c).2) := by
    unfold usedDisturb
    rw [S.digital]
    cases hd : c.digitalOnly
    · simp only [Bool.false_eq_true, if_false]
      exact ⟨hr hd, fun h => S.vRead hd (.inl h)⟩
    · simp
  refine ⟨hres ▸ h.resolution, fun hd hp => ?_, ?_, fun hm s hs => ?_, fun he hd => ?_, fun hu => ?_⟩
  · rw [S.mode]
    rw [S.digital] at hd
    rw [S.par hd] at hp
    exact h.wires hd hp
  · rw [S.mode, S.split]
    exact h.slices
  · rw [S.mode] at hm
    rw [S.split] at hs
    have := h.offset hm s hs
    have ew := S.wBit (.inl (by rw [hm]; rfl))
    unfold SliceFits wrappedShift at this ⊢
    rw [S.split, ew]
    exact this
  · rw [S.digital] at hd
    rw [S.mode, S.split]
    exact h.current he hd
  · rw [hdis.1] at hu
    rw [hdis.2 hu]
    exact h.disturb hu

theorem buildable_stale (h : applyConfig E j old = .ok c) : Buildable E c c ↔ Buildable E old c := by
  obtain ⟨_, _, hdig, hinf⟩ := apply_twice h h
  have e1 : usedResolution old c = usedResolution c c := by
    unfold usedResolution
    split
    · next hc =>
      cases hd : c.digitalOnly
      · rcases hc with hc | hc
        · rw [hd] at hc; cases hc
        · exact (congrArg Prod.fst (hinf hd hc).1).symm
      · exact (congrArg Prod.fst (hdig hd).1.adc).symm
    · rfl
  have e2 : usedDisturb old c = usedDisturb c c := by
    unfold usedDisturb
    split
    · next hd => exact (hdig hd).1.volt.symm
    · rfl
  exact ⟨fun b => ⟨e1 ▸ b.resolution, b.wires, b.slices, b.offset, b.current, e2 ▸ b.disturb⟩,
    fun b => ⟨e1 ▸ b.resolution, b.wires, b.slices, b.offset, b.current, e2 ▸ b.disturb⟩⟩

theorem release_iff : release w = .ok () ↔ Releasable w := by
  unfold release Releasable destroyXbar
  cases hx : w.xbar with
  | none => simp
  | some x =>
    dsimp only
    cases hv : w.cfg.verbose <;> cases hm : w.cfg.mode <;> simp [lift, Mode.family, Mode.isInt]

/-- When `set_config` returns. -/
theorem setConfig_iff : (∃ w', setConfig E (.good j) w = .ok w') ↔ Releasable w ∧ ∃ c : Cfg K, FromDoc E j c ∧
    Admissible c ∧ (c.digitalOnly = false → c.adcType ≠ .inf → w.cfg.resolution ≠ -1) ∧ Buildable E w.cfg c := by
  have hcfg : w.drop.cfg = w.cfg := by unfold World.drop; split <;> rfl
  constructor
  · rintro ⟨w', h⟩
    obtain ⟨h1, x, _, h2, h3⟩ := setConfig_inv h
    rcases h3 with ⟨h3, _⟩ | ⟨j', e, _, h3⟩
    · cases h3
    · cases e
      exact ⟨release_iff.1 h1, _, loaded_of h3, applyConfig_ok h3, resolution_of h3, (buildable_stale h3).1 (mkXbar_iff.1 ⟨x, h2⟩)⟩
  · rintro ⟨h1, c, F, A, hr, B⟩
    obtain ⟨c', h⟩ := accepted_of F A hr
    have S := fromDoc_unique F A (loaded_of h) (applyConfig_ok h)
    have B' := buildable_alike S (fun hd => (fromDoc_switches F (loaded_of h) hd).1) B
    obtain ⟨x, hx⟩ := mkXbar_iff (rng := ({ w.drop with cfg := c', data := j } : World K).drop.rng)
      (hs := ({ w.drop with cfg := c', data := j } : World K).drop.hists) |>.2 ((buildable_stale h).2 B')
    refine ⟨{ w.drop with cfg := c', data := j, xbar := some x }, ?_⟩
    unfold setConfig loadCfg newXbar
    rw [release_iff.2 h1]
    dsimp only
    rw [hcfg, h]
    have e : ({ w.drop with cfg := c', data := j } : World K).drop.cfg = c' := by unfold World.drop; split <;> rfl
    show (lift { w.drop with cfg := c', data := j } (mkXbar E c' _ _) >>= _) = _
    rw [hx]
    rfl

/-! ## Exceptions -/

/-- Anything but an exception. -/
def NoThrow (e : Fault) : Prop := e ≠ .thrown

theorem quiet_i32 (z : Int) : Sat NoThrow (i32 z) fun _ => True := by
  unfold i32
  split
  · trivial
  · show NoThrow _; unfold NoThrow; decide

theorem quiet_shlI (st : Bool) (a : Int) (k : Nat) : Sat NoThrow (shlI st a k) fun _ => True := by
  have q : ∀ e : Fault, e ≠ .thrown → NoThrow e := fun _ h => h
  unfold shlI
  exact Sat.ite (fun _ => Sat.ite (fun _ => Sat.ite (fun _ => q _ (by decide)) fun _ => quiet_i32 _) fun _ =>
    Sat.ite (fun _ => trivial) fun _ => q _ (by decide)) fun _ => q _ (by decide)

theorem quiet_maskOf (st : Bool) (k : Nat) : Sat NoThrow (maskOf st k) fun _ => True :=
  Sat.bind (quiet_shlI _ _ _) fun _ _ => quiet_i32 _

theorem quiet_adc : Sat NoThrow (mkAdc cfg) fun _ => True := by
  unfold mkAdc
  refine Sat.bind (P := fun _ => True) ?_ fun st _ => ?_
  · unfold adcSteps
    repeat' split
    all_goals first | trivial | (show NoThrow _; unfold NoThrow; decide)
  · split
    · trivial
    · trivial
    · exact Sat.bind (quiet_i32 _) fun _ _ => trivial

theorem quiet_rd : Sat NoThrow (optRd E cfg) fun _ => True := by
  unfold optRd mkRd rdCalcP rdKbT Env.fdiv
  dsimp only
  split
  · split
    · show NoThrow _; unfold NoThrow; decide
    · rw [ok_bind]
      split
      · show NoThrow _; unfold NoThrow; decide
      · rw [ok_bind, ok_bind]
        split
        · show NoThrow _; unfold NoThrow; decide
        · trivial
  · trivial

theorem quiet_steps {iMM : K} {l : List Nat} : Sat NoThrow (stepSizes E iMM l) fun _ => True := by
  unfold stepSizes
  refine (Sat.setG (v := Vec.const l.length (some 0)) (fun _ => le_refl l.length) fun i _ => ?_).true
  exact Sat.bind (quiet_maskOf _ _) fun _ _ => trivial

theorem quiet_delta {iMM : K} : Sat NoThrow (optDelta E cfg iMM (Vec.ofList (shiftsFrom (wrap32 cfg.wBit) cfg.split)))
    fun _ => True := by
  unfold optDelta
  split
  · split
    · show NoThrow _; unfold NoThrow; decide
    · unfold deltaOf
      refine Sat.bind (P := fun _ => True) (Sat.loop (I := fun _ => True) trivial fun i hi s _ => ?_) fun _ _ => trivial
      refine Sat.bind (Sat.vrd' fun _ => ?_) fun sh _ => ?_
      · show i < (shiftsFrom _ _).length
        rw [shiftsFrom_length]
        exact hi
      · exact Sat.bind (quiet_shlI _ _ _) fun a _ => Sat.bind (quiet_maskOf _ _) fun b _ =>
          Sat.bind (quiet_i32 _) fun _ _ => trivial
  · trivial

theorem mkXbar_thrown {rng : Nat} {hs : List (String × Hist K)} : mkXbar E cfg rng hs = .error .thrown ↔
    cfg.resolution ≤ 30 ∧ cfg.digitalOnly = false ∧ cfg.parasitics = true ∧ cfg.mode = .iTcWDiff := by
  constructor
  · intro h
    by_contra hc
    have : Sat NoThrow (mkXbar E cfg rng hs) fun _ => True := by
      unfold mkXbar mkMapper mkCore
      by_cases hr : cfg.resolution ≤ 30
      · obtain ⟨p, hp⟩ := optSolver_iff (cfg := cfg) |>.2 fun h1 h2 h3 => hc ⟨hr, h1, h2, h3⟩
        refine Sat.bind (P := fun _ => True) (Sat.bind (P := fun _ => True) (Sat.bind quiet_adc fun a _ => ?_) fun _ _ => trivial) fun _ _ =>
          Sat.bind quiet_rd fun _ _ => trivial
        dsimp only
        rw [hp, ok_bind]
        split
        · show NoThrow _; unfold NoThrow; decide
        · by_cases hu : (cfg.mode.isInt || cfg.mode == .tnn4) = true
          · rw [if_pos hu, if_pos hu]
            exact Sat.bind quiet_steps fun _ _ => Sat.bind quiet_delta fun _ _ => trivial
          · rw [if_neg hu, ok_bind]
            refine Sat.bind (P := fun _ => True) ?_ fun _ _ => trivial
            unfold optDelta
            rw [if_neg (fun hm => hu (usesShift_iff.2 (.inl (by rw [hm]; rfl))))]
            trivial
      · have : ∀ a, mkAdc cfg ≠ .ok a := fun a ha => hr (mkAdc_iff.1 ⟨a, ha⟩)
        have q := quiet_adc (cfg := cfg)
        cases ha : mkAdc cfg with
        | ok a => exact absurd ha (this a)
        | error e => rw [ha] at q; exact q
    rw [h] at this
    exact this rfl
  · rintro ⟨h1, h2, h3, h4⟩
    obtain ⟨a, ha⟩ := mkAdc_iff.2 h1
    unfold mkXbar mkMapper mkCore optSolver mkSolver
    rw [ha, ok_bind]
    simp only [h2, h3, h4, Mode.wEnc]
    rfl

/-- `set_config` ends with an exception for one kind of documents only. -/
theorem setConfig_exception {w w' : World K} {j : Json K} (h : setConfig E (.good j) w = .error (.threw w')) :
    w'.xbar = none ∧ w'.data = j ∧ FromDoc E j w'.cfg ∧ w'.cfg.digitalOnly = false ∧ w'.cfg.parasitics = true ∧
      w'.cfg.mode = .iTcWDiff := by
  have hxb : w.drop.xbar = none := by
    unfold World.drop
    split
    · assumption
    · rfl
  unfold setConfig at h
  rcases rbind_err.1 h with h | ⟨_, _, h⟩
  · unfold release at h
    split at h
    · cases h
    · have := (lift_threw h).1
      unfold destroyXbar at this
      repeat' split at this
      all_goals cases this
  · rcases rbind_err.1 h with h | ⟨r, hr, h⟩
    · simp only [loadCfg] at h
      rcases rbind_err.1 h with h | ⟨_, _, h⟩
      · have R := refuse_apply (E := E) (j := j) (c := w.drop.cfg)
        rw [(lift_threw h).1] at R
        rcases R with R | R <;> cases R
      · cases h
    · simp only [loadCfg] at hr
      rw [rbind_ok] at hr
      obtain ⟨c, hr, e⟩ := hr
      rw [lift_ok] at hr
      cases e
      rcases rbind_err.1 h with h | ⟨x, _, h⟩
      · obtain ⟨h1, h2⟩ := lift_threw h
        subst h2
        have := mkXbar_thrown.1 h1
        exact ⟨hxb, rfl, loaded_of hr, this.2.1, this.2.2.1, this.2.2.2⟩
      · cases h

/-- Slices that have no more bits than the word fit. -/
theorem fits_of (h : cfg.wBit ≤ 31) (hl : cfg.split.sum ≤ cfg.wBit) {s : Nat} (hs : s < cfg.split.length) :
    SliceFits cfg s := by
  have h1 : (cfg.split.take (s + 1)).sum = (cfg.split.take s).sum + cfg.split.getD s 0 := by
    rw [List.take_succ_eq_append_getElem hs, List.sum_append, List.sum_singleton, List.getD_eq_getElem _ _ hs]
  have h2 : (cfg.split.take (s + 1)).sum ≤ cfg.split.sum := by
    conv_rhs => rw [← List.take_append_drop (s + 1) cfg.split, List.sum_append]
    omega
  have h3 : wrappedShift cfg s + cfg.split.getD s 0 ≤ 31 := by
    unfold wrappedShift
    omega
  refine ⟨by omega, ?_⟩
  generalize wrappedShift cfg s = a at h3 ⊢
  generalize cfg.split.getD s 0 = b at h3 ⊢
  unfold pow32
  split
  · obtain rfl : b = 0 := by omega
    norm_num
  · have p : (2 : Int) ^ a * 2 ^ b ≤ 2147483648 := by
      rw [← pow_add]
      exact (pow_le_pow_right₀ (by norm_num) h3).trans (by norm_num)
    have q : (0 : Int) < 2 ^ a := by positivity
    have r : (1 : Int) ≤ 2 ^ b := one_le_pow₀ (by norm_num)
    constructor <;> nlinarith

/-- Loading the library with a document is `set_config` in a state without anything. -/
theorem boot_iff {j : Json K} :
    (∃ w, boot E (.good j) = .ok w) ↔ ∃ w, setConfig E (.good j) (world0 : World K) = .ok w := by
  have key : (do
      let r ← loadCfg E (.good j) (world0 : World K)
      if r.2 then do
        let x ← newXbar E r.1
        .ok { r.1 with xbar := some x }
      else .ok r.1 : R K (World K)) = setConfig E (.good j) world0 := by
    unfold setConfig loadCfg
    have hc : (world0 : World K).drop = world0 := rfl
    rw [hc]
    dsimp only
    cases applyConfig E j (world0 : World K).cfg with
    | ok c => rfl
    | error f => cases f <;> rfl
  unfold boot
  rw [key]
  dsimp only
  cases setConfig E (.good j) (world0 : World K) with
  | ok w => exact ⟨fun _ => ⟨w, rfl⟩, fun _ => ⟨w, rfl⟩⟩
  | error s => cases s <;> exact ⟨(fun ⟨_, h⟩ => nomatch h), (fun ⟨_, h⟩ => nomatch h)⟩

end

end Acs
