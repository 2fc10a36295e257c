import Verif.SpecUpdTest
import Verif.Lemmas.Patch
import Verif.Lemmas.Same
import Verif.Lemmas.SameCfg
import Verif.Lemmas.AWrite
import Verif.Lemmas.Program

/-! # Updates of one value -/

set_option linter.unusedSectionVars false

namespace Acs

open Spec

section
variable {K : Type} [Field K] [LinearOrder K] [IsStrictOrderedRing K] [FloorRing K]
variable {E : Env K} {d d' : Json K} {w w' : World K} {c c' : Cfg K} {key : String}

/-! ## Documents that differ in one member -/

theorem gives_but (h : ∀ k, k ≠ key → d'.find k = d.find k) {α : Type} {k : String} {P : Json K → α → Prop} {x : α}
    (hk : k ≠ key) (g : Gives d k P x) : Gives d' k P x := by
  unfold Gives at g ⊢
  rw [h k hk]
  exact g

theorem givesOr_but (h : ∀ k, k ≠ key → d'.find k = d.find k) {α : Type} {k : String} {T : Json K → Prop}
    {P : Json K → α → Prop} {x y : α} (hk : k ≠ key) (g : GivesOr d k T P y x) : GivesOr d' k T P y x := by
  unfold GivesOr Gives at g ⊢
  rw [h k hk]
  exact g

/-- The parameters of the document are the old ones up to one. -/
theorem analog_but (h : ∀ k, k ≠ key → d'.find k = d.find k) (hk : key ∈ ["HRS", "LRS", "verbose"])
    (A : FromDocAnalog E d c) (e : c' = { c with hrs := c'.hrs, lrs := c'.lrs, verbose := c'.verbose })
    (h1 : Gives d' "HRS" (NumIs E) c'.hrs) (h2 : Gives d' "LRS" (NumIs E) c'.lrs) : FromDocAnalog E d' c' := by
  have g : ∀ {k : String}, k ∉ ["HRS", "LRS", "verbose"] → ∀ {α : Type} {P : Json K → α → Prop} {x : α},
      Gives d k P x → Gives d' k P x := fun hn => gives_but h fun e => hn (e ▸ hk)
  have o : ∀ {k : String}, k ∉ ["HRS", "LRS", "verbose"] → ∀ {α : Type} {T : Json K → Prop} {P : Json K → α → Prop}
      {x y : α}, GivesOr d k T P y x → GivesOr d' k T P y x := fun hn => givesOr_but h fun e => hn (e ▸ hk)
  rw [e]
  refine ⟨h1, h2, g (by decide) A.adcType, fun q => ?_, g (by decide) A.hrsNoise,
    g (by decide) A.lrsNoise, o (by decide) A.d2d, o (by decide) A.c2c, o (by decide) A.readDisturb, fun q => ?_, ?_⟩
  · have B := A.adc q
    exact ⟨g (by decide) B.resolution, o (by decide) B.calib, fun r => g (by decide) (B.dict r),
      o (by decide) B.profile, fun r => o (by decide) (B.bin r)⟩
  · have B := A.rd q
    exact ⟨g (by decide) B.tRead, o (by decide) B.freq, o (by decide) B.strategy,
      fun r => g (by decide) (B.fp r), fun r => g (by decide) (B.tol r)⟩
  · obtain ⟨p, h1, h2, h3, h4⟩ := A.par
    exact ⟨p, o (by decide) h1, fun r => g (by decide) (h2 r), h3, fun r => ⟨g (by decide) (h4 r).1, (h4 r).2⟩⟩

theorem fromDoc_but (h : ∀ k, k ≠ key → d'.find k = d.find k) (hk : key ∈ ["HRS", "LRS", "verbose"])
    (F : FromDoc E d c) (e : c' = { c with hrs := c'.hrs, lrs := c'.lrs, verbose := c'.verbose })
    (h0 : Gives d' "verbose" BoolIs c'.verbose)
    (h1 : c.digitalOnly = false → Gives d' "HRS" (NumIs E) c'.hrs ∧ Gives d' "LRS" (NumIs E) c'.lrs) :
    FromDoc E d' c' := by
  have g : ∀ {k : String}, k ∉ ["HRS", "LRS", "verbose"] → ∀ {α : Type} {P : Json K → α → Prop} {x : α},
      Gives d k P x → Gives d' k P x := fun hn => gives_but h fun e => hn (e ▸ hk)
  have ha : c'.digitalOnly = c.digitalOnly := by rw [e]
  refine ⟨?_, ?_, ?_, ?_, h0, fun p => analog_but h hk (F.analog (ha ▸ p)) e (h1 (ha ▸ p)).1 (h1 (ha ▸ p)).2, ?_, ?_, ?_⟩
  all_goals rw [e]
  · exact g (by decide) F.M
  · exact g (by decide) F.N
  · exact g (by decide) F.mode
  · exact g (by decide) F.digital
  · exact fun p => g (by decide) (F.wBit p)
  · exact fun p => g (by decide) (F.iBit p)
  · exact fun p => g (by decide) (F.split p)

/-! ## The configuration after an update of one value -/

/-- `w` with the states and the verbosity of `c`. -/
def World.tuned (w : World K) (c : Cfg K) : World K :=
  { w with cfg := { w.cfg with hrs := c.hrs, lrs := c.lrs, verbose := c.verbose } }

theorem distinct_one (k : String) (v : Json K) : DistinctKeys (.obj [(k, v)]) := by
  unfold DistinctKeys
  exact List.nodup_singleton _

theorem update_one (hI : Inv E w) (hk : key ∈ ["HRS", "LRS", "verbose"]) {v : Json K}
    (h : updateConfig E (.good (.obj [(key, v)])) w = .ok (w', 0)) :
    SameEffective (w.tuned w'.cfg).cfg w'.cfg ∧
    (key ≠ "verbose" → w'.cfg.verbose = w.cfg.verbose) ∧
    (w.cfg.digitalOnly = false → w'.cfg.readDisturb = w.cfg.readDisturb ∧ w'.cfg.adcProfile = w.cfg.adcProfile ∧
      (key ≠ "HRS" → w'.cfg.hrs = w.cfg.hrs) ∧ (key ≠ "LRS" → w'.cfg.lrs = w.cfg.lrs)) ∧
    (w.cfg.digitalOnly = true → w'.cfg.hrs = w.cfg.hrs ∧ w'.cfg.lrs = w.cfg.lrs) := by
  rcases updateConfig_inv h with ⟨_, h2, _⟩ | ⟨x, j', q, hx, hj, _, hq, h2⟩
  · cases h2
  cases hj
  obtain ⟨_, _, _, a4, a5, a6, a7, a8, a9⟩ := updateCfg_inv (distinct_one key v) hq
  have hc : w'.cfg = q.1.cfg ∧ w'.data = q.1.data := by
    rcases h2 with ⟨_, _, _, _, _, _, h3, h4⟩ | ⟨_, rfl⟩
    · exact ⟨h3, h4⟩
    · exact ⟨rfl, rfl⟩
  cases hm : q.2.1
  · have e := a7 hm
    have e1 : w'.cfg = w.cfg := by rw [hc.1, e]
    rw [e1]
    refine ⟨?_, fun _ => rfl, fun _ => ⟨rfl, rfl, fun _ => rfl, fun _ => rfl⟩, fun _ => ⟨rfl, rfl⟩⟩
    exact ⟨⟨rfl, rfl⟩, rfl, rfl, rfl, rfl, fun _ => rfl, fun _ => rfl, fun _ => ⟨rfl, rfl⟩, fun _ => rfl,
      fun _ _ => ⟨rfl, rfl⟩, fun _ _ _ => rfl, fun _ _ _ => rfl, fun _ => ⟨rfl, rfl⟩, fun _ => ⟨rfl, rfl⟩, fun _ => rfl,
      fun _ _ => rfl, fun _ _ => ⟨rfl, rfl, rfl⟩, fun _ _ _ => rfl, fun _ _ _ => rfl, fun _ _ => rfl⟩
  have ha := a6 hm
  rw [← hc.1, ← hc.2] at ha
  have hf : ∀ k, k ≠ key → w'.data.find k = w.data.find k := fun k hk => by
    rw [hc.2]
    refine a8 k fun ⟨u, hu, _⟩ => hk ?_
    cases hu with
    | head => rfl
    | tail _ hu => cases hu
  have hM : "M" ≠ key := fun e => by rw [← e] at hk; exact absurd hk (by decide)
  obtain ⟨c0, e0⟩ : ∃ c0, applyConfig E w.data c0 = .ok w.cfg := by
    rcases hI.loaded with ⟨_, e⟩ | e
    · exact absurd ((hf "M" hM).trans (by rw [e]; rfl)) (apply_find ha)
    · exact e
  have F := loaded_of e0
  have F' := loaded_of ha
  have A := applyConfig_ok e0
  have A' := applyConfig_ok ha
  have hD : "digital_only" ≠ key := fun e => by rw [← e] at hk; exact absurd hk (by decide)
  have hd : w'.cfg.digitalOnly = w.cfg.digitalOnly :=
    one (reqBool.2 (gives_but hf hD F.digital)) (reqBool.2 F'.digital)
  have G : FromDoc E w'.data (w.tuned w'.cfg).cfg :=
    fromDoc_but hf hk F rfl F'.verbose fun h => ⟨(F'.analog (hd.trans h)).hrs, (F'.analog (hd.trans h)).lrs⟩
  have GA : Admissible (w.tuned w'.cfg).cfg := by
    refine ⟨A.1, A.2.1, A.2.2.1, fun h => ?_⟩
    have B := A.2.2.2 h
    exact ⟨(A'.2.2.2 (hd.trans h)).states, B.adc, B.calib, B.vRead, B.family, B.software, B.cell, B.variability, B.wires⟩
  have hS := fromDoc_unique G GA F' A'
  refine ⟨hS, fun hn => one (reqBool.2 (gives_but hf hn.symm F.verbose)) (reqBool.2 F'.verbose), fun h => ?_, fun h => ?_⟩
  rotate_left
  · have := ((apply_twice ha ha).2.2.1 (hd.trans h)).1
    have := this.states
    simp only [Cfg.statesPart, Prod.mk.injEq] at this
    exact ⟨this.1, this.2.1⟩
  have hs := fromDoc_switches G F' h
  refine ⟨hs.1, ?_, fun hn => ?_, fun hn => ?_⟩
  · by_cases hi : w.cfg.adcType = .inf
    · have ht : w'.cfg.adcType = .inf := (hS.adcType h).trans hi
      have := ((apply_twice ha ha).2.2.2 (hd.trans h) ht).1
      simp only [Cfg.adcPart, Prod.mk.injEq] at this
      exact this.2.2.2.1
    · exact hs.2 hi
  · exact one (reqNum.2 (gives_but hf hn.symm (F.analog h).hrs)) (reqNum.2 (F'.analog (hd.trans h)).hrs)
  · exact one (reqNum.2 (gives_but hf hn.symm (F.analog h).lrs)) (reqNum.2 (F'.analog (hd.trans h)).lrs)

/-! ## Verbosity does not matter for the calls -/

theorem tuned_write (b : Bool) {x : Xbar K} {mat : Vec Int} {m n : Nat} :
    xWrite E { c with verbose := b } x mat m n = xWrite E c x mat m n := rfl

theorem tuned_mvm (b : Bool) {x : Xbar K} {res vec mat : Vec Int} {m n : Nat} {l : String} :
    xMvm E { c with verbose := b } x res vec mat m n l = xMvm E c x res vec mat m n l := rfl

/-- The worlds differ in the verbosity only. -/
def Louder (u v : World K) : Prop := ∃ b, v = { u with cfg := { u.cfg with verbose := b } }

theorem louder_serve (ops : List Op) (h : Louder w w') : Sim Louder (serve E w ops) (serve E w' ops) := by
  refine Sim.serve (fun u v h mat m n => ?_) (fun u v h res vec mat m n l => ?_) h
  · obtain ⟨b, rfl⟩ := h
    obtain ⟨c, dt, xb, rg, hh⟩ := u
    cases xb with
    | none => exact .ok ⟨b, rfl⟩
    | some x =>
      unfold cpyMtrx
      by_cases hb : tooBig ⟨c, dt, some x, rg, hh⟩ m n
      · have hb' : tooBig ⟨{ c with verbose := b }, dt, some x, rg, hh⟩ m n := hb
        simp only [if_pos hb, if_pos hb']
        exact .ok ⟨b, rfl⟩
      · have hb' : ¬tooBig ⟨{ c with verbose := b }, dt, some x, rg, hh⟩ m n := hb
        simp only [if_neg hb, if_neg hb', tuned_write]
        cases xWrite E c x mat (toSize m) (toSize n) with
        | error e => exact Sim.lift_error
        | ok y => exact .ok ⟨b, rfl⟩
  · obtain ⟨b, rfl⟩ := h
    obtain ⟨c, dt, xb, rg, hh⟩ := u
    cases xb with
    | none => exact .ok ⟨b, rfl⟩
    | some x =>
      unfold exeMvm
      by_cases hb : tooBig ⟨c, dt, some x, rg, hh⟩ m n
      · have hb' : tooBig ⟨{ c with verbose := b }, dt, some x, rg, hh⟩ m n := hb
        simp only [if_pos hb, if_pos hb']
        exact .ok ⟨b, rfl⟩
      · have hb' : ¬tooBig ⟨{ c with verbose := b }, dt, some x, rg, hh⟩ m n := hb
        simp only [if_neg hb, if_neg hb', tuned_mvm]
        cases xMvm E c x res vec mat (toSize m) (toSize n) l with
        | error e => exact Sim.lift_error
        | ok y => exact .ok ⟨b, rfl⟩

theorem struct_shape {x : Xbar K} (h : SameStruct c c') (hp : c'.parasitics = c.parasitics) (hs : Shape E c x) :
    Shape E c' x := by
  have hr := h.rdEq
  have hc := h.core hs.core
  have hrd : c'.readDisturb = true → ∃ rd, x.rd = some rd ∧ RdShape c' rd := fun e => by
    obtain ⟨rd, h1, h2⟩ := hs.rd (hr.symm.trans e)
    exact ⟨rd, h1, h.rdShape h2⟩
  have A := hs.aux
  have P := hs.parEx
  unfold SameStruct at h
  rw [hp] at h
  refine ⟨hc, ?_, hrd, ?_⟩
  · rw [h]
    exact ⟨A.vdP, A.vdM, A.vdSlice, A.tmpInt, A.tmpFp, A.tmp, A.tmpP, A.tmpM, A.tmpLsb, A.tmpMsb, A.resFp⟩
  · rw [h]
    exact P

/-- Calls after an update of the verbosity. -/
theorem verbose_serve {hs : List Op} (hS : Settled E hs w) (hI : Inv E w) {v : Json K}
    (h : updateConfig E (.good (.obj [("verbose", v)])) w = .ok (w', 0)) (ops : List Op) :
    heard (serve E w' ops) = heard (serve E w ops) := by
  obtain ⟨S, _, h1, h2⟩ := update_one hI (by decide) h
  have hn : ∀ k, structural k → ¬Changes E w.data (.obj [("verbose", v)]) k := fun k hk ⟨u, hu, _⟩ => by
    cases hu with
    | head => exact absurd hk (by unfold structural; decide)
    | tail _ hu => cases hu
  have hd1 := distinct_one "verbose" v
  obtain ⟨hx, q, h3, h4, rfl⟩ := update_keep hn hd1 h
  obtain ⟨_, _, _, _, _, a6, a7, a8, _⟩ := updateCfg_inv hd1 h3
  cases hm : q.2.1
  · rw [a7 hm]
  have ag : SameKeys w.data q.1.data := fun k hs => a8 k (hn k hs)
  have hw : q.1.data.find "w_res" = w.data.find "w_res" := a8 _ fun ⟨u, hu, _⟩ => by
    simp [Json.items] at hu
  obtain ⟨c0, e0⟩ : ∃ c0, applyConfig E w.data c0 = .ok w.cfg := by
    rcases hI.loaded with ⟨_, e⟩ | e
    · exact absurd ((ag "M" (structural_of (by decide))).trans (by rw [e]; rfl)) (apply_find (a6 hm))
    · exact e
  obtain ⟨b1, _, b3, _⟩ := apply_again ag e0 (a6 hm)
  have hp := (b3 hw).1
  have hl : q.1.cfg.hrs = w.cfg.hrs ∧ q.1.cfg.lrs = w.cfg.lrs := by
    cases hd : w.cfg.digitalOnly
    · exact ⟨(h1 hd).2.2.1 (by decide), (h1 hd).2.2.2 (by decide)⟩
    · exact h2 hd
  have ht : Louder w (w.tuned q.1.cfg) := ⟨q.1.cfg.verbose, by unfold World.tuned; rw [hl.1, hl.2]⟩
  rw [← (louder_serve ops ht).heard_eq]
  obtain ⟨x, ex, hr⟩ := settled_runs hS
  have s0 := runs_shape hr
  have s1 : Shape E (w.tuned q.1.cfg).cfg x := struct_shape (c := w.cfg) (by
    unfold SameStruct World.tuned
    dsimp only
    rw [hl.1, hl.2]) rfl s0
  have s2 : Shape E q.1.cfg x := struct_shape b1 hp s0
  cases hd : w.cfg.digitalOnly
  · have A : Alike (w.tuned q.1.cfg).cfg q.1.cfg := ⟨S, hd, (h1 hd).1, (h1 hd).2.1⟩
    have T : Alike.Twins E (w.tuned q.1.cfg) q.1 x.mapper.core.adc x :=
      ⟨A, ex, hx.trans ex, ⟨Alike.shape_adc s1, rfl, fun _ => rfl⟩, s1⟩
    exact (Alike.twins_serve T).heard_eq
  · have A : DAlike (w.tuned q.1.cfg).cfg q.1.cfg := ⟨S, hd⟩
    have T : DAlike.Twins E (w.tuned q.1.cfg) q.1 :=
      ⟨A, x, x, ex, hx.trans ex, ⟨rfl, rfl, rfl, _, _, rfl⟩, s1, s2⟩
    exact (DAlike.twins_serve T).heard_eq

/-! ## Nominal currents -/

theorem nominal_by_top (r : Nat) (g : Int) :
    nominal c r g = c.hrs + g * ((c.lrs - c.hrs) / (topState c r : Int)) := by
  cases hi : c.mode.isInt
  · rw [nominal_bin hi, topState_bin hi]; simp
  · rw [nominal_int hi, topState_int hi]; push_cast; rfl

theorem topState_same (hm : c'.mode = c.mode) (hs : c'.split = c.split) (r : Nat) : topState c' r = topState c r := by
  unfold topState
  rw [hm, hs]

theorem held_same (hm : c'.mode = c.mode) (hs : c'.split = c.split)
    (hw : c.mode.family = .int → c'.wBit = c.wBit) (h : List Op) (r j : Nat) :
    heldP c' h r j = heldP c h r j ∧ heldM c' h r j = heldM c h r j := by
  unfold heldP heldM rowOf encP encM
  rw [hm, hs]
  cases hc : c.mode <;> simp only [and_self] <;> rw [hw (by rw [hc]; rfl)] <;> trivial

/-- The nominal current depends on the current of the low state unless the cell is in its top state. -/
theorem nominal_hrs (hm : c'.mode = c.mode) (hs : c'.split = c.split) (hl : c'.lrs = c.lrs) (hn : c'.hrs ≠ c.hrs)
    (r : Nat) (g : Int) : nominal c r g ≠ nominal c' r g ↔ g ≠ topState c r ∨ topState c r = 0 := by
  rw [nominal_by_top, nominal_by_top, topState_same hm hs, hl]
  have hn' : c.hrs - c'.hrs ≠ 0 := sub_ne_zero.2 hn.symm
  by_cases ht : topState c r = 0
  · rw [ht]
    simp [hn.symm]
  · have ht' : (topState c r : K) ≠ 0 := Int.cast_ne_zero.2 ht
    rw [or_iff_left ht, not_iff_not]
    have e : c.hrs + g * ((c.lrs - c.hrs) / (topState c r : K)) - (c'.hrs + g * ((c.lrs - c'.hrs) / (topState c r : K))) =
        (c.hrs - c'.hrs) * (((topState c r : K) - g) / topState c r) := by
      field_simp
      ring
    rw [← sub_eq_zero, e, mul_eq_zero, or_iff_right hn', div_eq_zero_iff, or_iff_left ht', sub_eq_zero]
    exact ⟨fun h => (Int.cast_injective h).symm, fun h => by rw [h]⟩

/-- It depends on the current of the high state unless the cell is in state zero. -/
theorem nominal_lrs (hm : c'.mode = c.mode) (hs : c'.split = c.split) (hl : c'.hrs = c.hrs) (hn : c'.lrs ≠ c.lrs)
    (r : Nat) (g : Int) : nominal c r g ≠ nominal c' r g ↔ g ≠ 0 ∧ topState c r ≠ 0 := by
  rw [nominal_by_top, nominal_by_top, topState_same hm hs, hl]
  have hn' : c.lrs - c'.lrs ≠ 0 := sub_ne_zero.2 hn.symm
  by_cases ht : topState c r = 0
  · rw [ht]
    simp
  · have ht' : (topState c r : K) ≠ 0 := Int.cast_ne_zero.2 ht
    rw [and_iff_left ht, not_iff_not]
    have e : c.hrs + g * ((c.lrs - c.hrs) / (topState c r : K)) - (c.hrs + g * ((c'.lrs - c.hrs) / (topState c r : K))) =
        (c.lrs - c'.lrs) * ((g : K) / topState c r) := by
      field_simp
      ring
    rw [← sub_eq_zero, e, mul_eq_zero, or_iff_right hn', div_eq_zero_iff, or_iff_left ht']
    exact Int.cast_eq_zero

theorem differ_shows {α : Type} {A B : Mat α} {r n : Nat} {f g : Nat → Nat → α} (hA : Shows A r n f)
    (hB : Shows B r n g) : Differ A B ↔ ∃ i j, i < r ∧ j < n ∧ f i j ≠ g i j := by
  obtain ⟨a1, a2, a3⟩ := hA
  obtain ⟨b1, b2, b3⟩ := hB
  unfold Differ
  rw [a1, a2]
  constructor
  · rintro ⟨i, j, h1, h2, h3⟩
    exact ⟨i, j, h1, h2, by rw [← a3 i j h1 h2, ← b3 i j h1 h2]; exact h3⟩
  · rintro ⟨i, j, h1, h2, h3⟩
    exact ⟨i, j, h1, h2, by rw [a3 i j h1 h2, b3 i j h1 h2]; exact h3⟩

end

end Acs
