import Verif.SpecEmu
import Verif.Lemmas.EmuInv

/-! # Programs that use the emulation library: the state of the library follows the history -/

namespace Acs

open Finset Spec

variable {S : Type}

namespace EmuLine

def A := "Function pointer mvm_c_to_py not set. Emulate operation instead."
def B := "Function pointer cpy_c_to_py not set. Emulate operation instead."
def D := "Function pointer update_config_c_to_py not set. Emulate operation instead."

theorem ab : A ≠ B := by decide
theorem ad : A ≠ D := by decide
theorem bd : B ≠ D := by decide

end EmuLine

open EmuLine

structure EmuTracks (h : List (EmuCall S)) (w : Emu S) : Prop where
  mvm : w.mvmCb = mvmCbOf h
  cpy : w.cpyCb = cpyCbOf h
  upd : w.updCb = updCbOf h
  out : w.out = printed h
  wm : w.warnMvm = true ↔ A ∈ printed h
  wc : w.warnCpy = true ↔ B ∈ printed h
  wu : w.warnUpd = true ↔ D ∈ printed h

theorem emuTracks0 (s : S) : EmuTracks [] (emu0 s) :=
  ⟨rfl, rfl, rfl, rfl, by simp [emu0, printed], by simp [emu0, printed], by simp [emu0, printed]⟩

theorem map_eq_ok {α β : Type} {x : C α} {g : α → β} {y : β} :
    x.map g = .ok y ↔ ∃ a, x = .ok a ∧ g a = y := by
  cases x with
  | error e =>
    constructor
    · intro h; cases h
    · rintro ⟨_, h, _⟩; cases h
  | ok a =>
    constructor
    · intro h; cases h; exact ⟨a, rfl, rfl⟩
    · rintro ⟨b, h, rfl⟩; cases h; rfl

theorem printed_none {h : List (EmuCall S)} {c : EmuCall S} (e : warningOf h c = none) :
    printed (c :: h) = printed h := by
  simp only [printed, e]

theorem printed_some {h : List (EmuCall S)} {c : EmuCall S} {x : String} (e : warningOf h c = some x) :
    printed (c :: h) = if x ∈ printed h then printed h else printed h ++ [x] := by
  simp only [printed, e]

/-- The lines after a call that asks for the line `x`. -/
theorem mem_printed {h : List (EmuCall S)} {c : EmuCall S} {x y : String} (e : warningOf h c = some x) :
    y ∈ printed (c :: h) ↔ y ∈ printed h ∨ y = x := by
  rw [printed_some e]
  split
  · rename_i hx
    exact ⟨.inl, fun hy => hy.elim id fun hy => hy ▸ hx⟩
  · simp

theorem EmuTracks.step {h : List (EmuCall S)} {w w' : Emu S} (t : EmuTracks h w) {c : EmuCall S} {r : EmuReply}
    (e : emuStep c w = .ok (w', r)) : EmuTracks (c :: h) w' ∧ CallReply h w.host c r w'.host := by
  cases c with
  | setMvm f =>
    simp only [emuStep, ok_inj, Prod.mk.injEq] at e
    obtain ⟨rfl, rfl⟩ := e
    exact ⟨⟨rfl, t.cpy, t.upd, t.out, t.wm, t.wc, t.wu⟩, rfl, rfl⟩
  | setCpy f =>
    simp only [emuStep, ok_inj, Prod.mk.injEq] at e
    obtain ⟨rfl, rfl⟩ := e
    exact ⟨⟨t.mvm, rfl, t.upd, t.out, t.wm, t.wc, t.wu⟩, rfl, rfl⟩
  | setUpd f =>
    simp only [emuStep, ok_inj, Prod.mk.injEq] at e
    obtain ⟨rfl, rfl⟩ := e
    exact ⟨⟨t.mvm, t.cpy, rfl, t.out, t.wm, t.wc, t.wu⟩, rfl, rfl⟩
  | mvm res vec mat m n l =>
    simp only [emuStep, map_eq_ok, Prod.mk.injEq] at e
    obtain ⟨⟨w1, ⟨y, v, q⟩, k⟩, e, rfl, rfl⟩ := e
    unfold emuMvm at e
    cases hcb : w.mvmCb with
    | none =>
      have hh : mvmCbOf h = none := t.mvm.symm.trans hcb
      have hw : warningOf h (.mvm res vec mat m n l) = some A := by simp [warningOf, hh, A]
      rw [hcb] at e
      dsimp only at e
      rw [bind_eq_ok] at e
      obtain ⟨y', hy, e⟩ := e
      simp only [ok_inj, Prod.mk.injEq] at e
      obtain ⟨rfl, ⟨rfl, rfl, rfl⟩, rfl⟩ := e
      have e := accG_addI_inv (f := fun i j => entry mat n.toNat i j * vec.get j)
        (fun i j x _ hj hx => emuTerm_inv (by omega) hx) hy
      refine ⟨?_, ?_⟩
      · by_cases hx : w.warnMvm = true
        · have hA := t.wm.1 hx
          have hp : printed (EmuCall.mvm res vec mat m n l :: h) = printed h := by
            rw [printed_some hw, if_pos hA]
          rw [if_pos hx]
          exact ⟨t.mvm, t.cpy, t.upd, by rw [hp]; exact t.out, by rw [hp]; exact t.wm, by rw [hp]; exact t.wc,
            by rw [hp]; exact t.wu⟩
        · have hA := mt t.wm.2 hx
          rw [if_neg hx]
          refine ⟨hh.symm, t.cpy, t.upd, ?_, ?_, ?_, ?_⟩
          · rw [printed_some hw, if_neg hA, ← t.out]; rfl
          · exact ⟨fun _ => (mem_printed hw).2 (.inr rfl), fun _ => rfl⟩
          · exact t.wc.trans ⟨fun x => (mem_printed hw).2 (.inl x),
              fun x => ((mem_printed hw).1 x).elim id fun x => absurd x.symm ab⟩
          · exact t.wu.trans ⟨fun x => (mem_printed hw).2 (.inl x),
              fun x => ((mem_printed hw).1 x).elim id fun x => absurd x.symm ad⟩
      · simp only [CallReply, hh]
        refine ⟨_, rfl, by split <;> rfl, ?_⟩
        subst e
        exact ⟨rfl, fun i hi => if_pos hi, fun i hi => if_neg (by omega)⟩
    | some f =>
      have hh : mvmCbOf h = some f := t.mvm.symm.trans hcb
      have hp := printed_none (h := h) (c := .mvm res vec mat m n l) (by simp [warningOf, hh])
      rw [hcb] at e
      dsimp only at e
      rw [bind_eq_ok] at e
      obtain ⟨⟨s', ⟨a, b, d⟩, code⟩, hf, e⟩ := e
      simp only [ok_inj, Prod.mk.injEq] at e
      obtain ⟨rfl, ⟨rfl, rfl, rfl⟩, rfl⟩ := e
      refine ⟨⟨hh.symm, t.cpy, t.upd, by rw [hp]; exact t.out, by rw [hp]; exact t.wm, by rw [hp]; exact t.wc,
            by rw [hp]; exact t.wu⟩, ?_⟩
      simp only [CallReply, hh]
      exact ⟨_, _, _, _, hf, rfl⟩
  | cpy mat m n l =>
    simp only [emuStep, map_eq_ok, Prod.mk.injEq] at e
    obtain ⟨⟨w1, y, k⟩, e, rfl, rfl⟩ := e
    unfold emuCpy at e
    cases hcb : w.cpyCb with
    | none =>
      have hh : cpyCbOf h = none := t.cpy.symm.trans hcb
      have hw : warningOf h (.cpy mat m n l) = some B := by simp [warningOf, hh, B]
      rw [hcb] at e
      simp only [ok_inj, Prod.mk.injEq] at e
      obtain ⟨rfl, rfl, rfl⟩ := e
      refine ⟨?_, ?_⟩
      · by_cases hx : w.warnCpy = true
        · have hA := t.wc.1 hx
          have hp : printed (EmuCall.cpy mat m n l :: h) = printed h := by
            rw [printed_some hw, if_pos hA]
          rw [if_pos hx]
          exact ⟨t.mvm, t.cpy, t.upd, by rw [hp]; exact t.out, by rw [hp]; exact t.wm, by rw [hp]; exact t.wc,
            by rw [hp]; exact t.wu⟩
        · have hA := mt t.wc.2 hx
          rw [if_neg hx]
          refine ⟨t.mvm, hh.symm, t.upd, ?_, ?_, ?_, ?_⟩
          · rw [printed_some hw, if_neg hA, ← t.out]; rfl
          · exact t.wm.trans ⟨fun x => (mem_printed hw).2 (.inl x),
              fun x => ((mem_printed hw).1 x).elim id fun x => absurd x ab⟩
          · exact ⟨fun _ => (mem_printed hw).2 (.inr rfl), fun _ => rfl⟩
          · exact t.wu.trans ⟨fun x => (mem_printed hw).2 (.inl x),
              fun x => ((mem_printed hw).1 x).elim id fun x => absurd x.symm bd⟩
      · simp only [CallReply, hh]
        exact ⟨trivial, by split <;> rfl⟩
    | some f =>
      have hh : cpyCbOf h = some f := t.cpy.symm.trans hcb
      have hp := printed_none (h := h) (c := .cpy mat m n l) (by simp [warningOf, hh])
      rw [hcb] at e
      dsimp only at e
      rw [bind_eq_ok] at e
      obtain ⟨⟨s', a, code⟩, hf, e⟩ := e
      simp only [ok_inj, Prod.mk.injEq] at e
      obtain ⟨rfl, rfl, rfl⟩ := e
      refine ⟨⟨t.mvm, hh.symm, t.upd, by rw [hp]; exact t.out, by rw [hp]; exact t.wm, by rw [hp]; exact t.wc,
            by rw [hp]; exact t.wu⟩, ?_⟩
      simp only [CallReply, hh]
      exact ⟨_, _, hf, rfl⟩
  | upd json l =>
    simp only [emuStep, map_eq_ok, Prod.mk.injEq] at e
    obtain ⟨⟨w1, k⟩, e, rfl, rfl⟩ := e
    unfold emuUpdate at e
    cases hcb : w.updCb with
    | none =>
      have hh : updCbOf h = none := t.upd.symm.trans hcb
      have hw : warningOf h (.upd json l) = some D := by simp [warningOf, hh, D]
      rw [hcb] at e
      simp only [ok_inj, Prod.mk.injEq] at e
      obtain ⟨rfl, rfl⟩ := e
      refine ⟨?_, ?_⟩
      · by_cases hx : w.warnUpd = true
        · have hA := t.wu.1 hx
          have hp : printed (EmuCall.upd json l :: h) = printed h := by
            rw [printed_some hw, if_pos hA]
          rw [if_pos hx]
          exact ⟨t.mvm, t.cpy, t.upd, by rw [hp]; exact t.out, by rw [hp]; exact t.wm, by rw [hp]; exact t.wc,
            by rw [hp]; exact t.wu⟩
        · have hA := mt t.wu.2 hx
          rw [if_neg hx]
          refine ⟨t.mvm, t.cpy, hh.symm, ?_, ?_, ?_, ?_⟩
          · rw [printed_some hw, if_neg hA, ← t.out]; rfl
          · exact t.wm.trans ⟨fun x => (mem_printed hw).2 (.inl x),
              fun x => ((mem_printed hw).1 x).elim id fun x => absurd x ad⟩
          · exact t.wc.trans ⟨fun x => (mem_printed hw).2 (.inl x),
              fun x => ((mem_printed hw).1 x).elim id fun x => absurd x bd⟩
          · exact ⟨fun _ => (mem_printed hw).2 (.inr rfl), fun _ => rfl⟩
      · simp only [CallReply, hh]
        exact ⟨trivial, by split <;> rfl⟩
    | some f =>
      have hh : updCbOf h = some f := t.upd.symm.trans hcb
      have hp := printed_none (h := h) (c := .upd json l) (by simp [warningOf, hh])
      rw [hcb] at e
      dsimp only at e
      rw [bind_eq_ok] at e
      obtain ⟨⟨s', code⟩, hf, e⟩ := e
      simp only [ok_inj, Prod.mk.injEq] at e
      obtain ⟨rfl, rfl⟩ := e
      refine ⟨⟨t.mvm, t.cpy, hh.symm, by rw [hp]; exact t.out, by rw [hp]; exact t.wm, by rw [hp]; exact t.wc,
            by rw [hp]; exact t.wu⟩, ?_⟩
      simp only [CallReply, hh]
      exact ⟨_, hf, trivial⟩

theorem EmuTracks.run {cs : List (EmuCall S)} : ∀ {h : List (EmuCall S)} {w w' : Emu S}, EmuTracks h w →
    ∀ {rs : List EmuReply}, emuRun cs w = .ok (w', rs) →
      EmuTracks (cs.reverse ++ h) w' ∧ Replies h w.host cs rs w'.host := by
  induction cs with
  | nil =>
    intro h w w' t rs e
    simp only [emuRun, ok_inj, Prod.mk.injEq] at e
    obtain ⟨rfl, rfl⟩ := e
    exact ⟨t, rfl, rfl⟩
  | cons c cs ih =>
    intro h w w' t rs e
    simp only [emuRun, bind_eq_ok, ok_inj, Prod.mk.injEq] at e
    obtain ⟨⟨w1, r⟩, e1, ⟨w2, q⟩, e2, rfl, rfl⟩ := e
    obtain ⟨t1, h1⟩ := t.step e1
    obtain ⟨t2, h2⟩ := ih t1 e2
    refine ⟨?_, r, w1.host, q, rfl, h1, h2⟩
    rw [List.reverse_cons, List.append_assoc]
    exact t2

/-- Every callback in force has been registered. -/
theorem mvmCbOf_mem {h : List (EmuCall S)} {f : MvmCb S} (e : mvmCbOf h = some f) :
    EmuCall.setMvm (some f) ∈ h := by
  induction h with
  | nil => cases e
  | cons c h ih =>
    cases c with
    | setMvm g => simp only [mvmCbOf] at e; subst e; exact List.mem_cons_self
    | _ => exact List.mem_cons_of_mem _ (ih e)

theorem cpyCbOf_mem {h : List (EmuCall S)} {f : CpyCb S} (e : cpyCbOf h = some f) :
    EmuCall.setCpy (some f) ∈ h := by
  induction h with
  | nil => cases e
  | cons c h ih =>
    cases c with
    | setCpy g => simp only [cpyCbOf] at e; subst e; exact List.mem_cons_self
    | _ => exact List.mem_cons_of_mem _ (ih e)

theorem updCbOf_mem {h : List (EmuCall S)} {f : UpdCb S} (e : updCbOf h = some f) :
    EmuCall.setUpd (some f) ∈ h := by
  induction h with
  | nil => cases e
  | cons c h ih =>
    cases c with
    | setUpd g => simp only [updCbOf] at e; subst e; exact List.mem_cons_self
    | _ => exact List.mem_cons_of_mem _ (ih e)

theorem EmuTracks.goes {h : List (EmuCall S)} {w : Emu S} (t : EmuTracks h w) (hr : ∀ c ∈ h, Responds c)
    {c : EmuCall S} (hf : mvmCbOf h = none → Fits c) : ∃ x, emuStep c w = .ok x := by
  cases c with
  | setMvm f => exact ⟨_, rfl⟩
  | setCpy f => exact ⟨_, rfl⟩
  | setUpd f => exact ⟨_, rfl⟩
  | mvm res vec mat m n l =>
    simp only [emuStep]
    unfold emuMvm
    cases hcb : w.mvmCb with
    | none =>
      obtain ⟨h1, h2, h3, h4, h5, h6⟩ := hf (t.mvm.symm.trans hcb)
      have key : ∃ y, accG addI m.toNat n.toNat (emuTerm n mat vec) res = .ok y := by
        rcases lt_or_ge n 0 with hn | hn
        · have hn0 : n.toNat = 0 := by omega
          rw [hn0]
          exact ⟨_, accG_ok (fun i _ => res.get i) h1 (fun i _ => rfl) fun i j _ hj => by omega⟩
        · have := accG_emu h1 h2 h3 h4 h5 h6
          rw [Int.toNat_of_nonneg hn] at this
          exact ⟨_, this⟩
      obtain ⟨y, hy⟩ := key
      dsimp only
      rw [hy]
      exact ⟨_, rfl⟩
    | some f =>
      have := hr _ (mvmCbOf_mem (t.mvm.symm.trans hcb))
      obtain ⟨x, hx⟩ := this w.host res vec mat m n l
      dsimp only
      rw [hx]
      exact ⟨_, rfl⟩
  | cpy mat m n l =>
    simp only [emuStep]
    unfold emuCpy
    cases hcb : w.cpyCb with
    | none => exact ⟨_, rfl⟩
    | some f =>
      have := hr _ (cpyCbOf_mem (t.cpy.symm.trans hcb))
      obtain ⟨x, hx⟩ := this w.host mat m n l
      dsimp only
      rw [hx]
      exact ⟨_, rfl⟩
  | upd json l =>
    simp only [emuStep]
    unfold emuUpdate
    cases hcb : w.updCb with
    | none => exact ⟨_, rfl⟩
    | some f =>
      have := hr _ (updCbOf_mem (t.upd.symm.trans hcb))
      obtain ⟨x, hx⟩ := this w.host json l
      dsimp only
      rw [hx]
      exact ⟨_, rfl⟩

theorem EmuTracks.goesAll {cs : List (EmuCall S)} : ∀ {h : List (EmuCall S)} {w : Emu S}, EmuTracks h w →
    (∀ c ∈ h, Responds c) → (∀ c ∈ cs, Responds c) → FitsWhenEmulated h cs →
      ∃ w' rs, emuRun cs w = .ok (w', rs) := by
  induction cs with
  | nil => intro h w _ _ _ _; exact ⟨_, _, rfl⟩
  | cons c cs ih =>
    intro h w t hr hr' hf
    obtain ⟨⟨w1, r⟩, e1⟩ := t.goes hr hf.1
    obtain ⟨w', rs, e2⟩ := ih (t.step e1).1
      (fun d hd => (List.mem_cons.1 hd).elim (fun e => e ▸ hr' c List.mem_cons_self) (hr d))
      (fun d hd => hr' d (List.mem_cons_of_mem _ hd)) hf.2
    exact ⟨w', r :: rs, by simp only [emuRun, e1, ok_bind, e2]⟩

theorem callReply_unique {h : List (EmuCall S)} {s s' t' : S} {c : EmuCall S} {r q : EmuReply}
    (h1 : CallReply h s c r s') (h2 : CallReply h s c q t') : r = q ∧ s' = t' := by
  cases c with
  | mvm res vec mat m n l =>
    cases hc : mvmCbOf h <;> simp only [CallReply, hc] at h1 h2
    · obtain ⟨y, rfl, rfl, hy⟩ := h1
      obtain ⟨y', rfl, rfl, hy'⟩ := h2
      rw [adds_unique hy hy' fun _ _ _ _ => rfl]
      exact ⟨rfl, rfl⟩
    · obtain ⟨y, v, u, k, e, rfl⟩ := h1
      obtain ⟨y', v', u', k', e', rfl⟩ := h2
      rw [e] at e'
      simp only [ok_inj, Prod.mk.injEq] at e'
      obtain ⟨rfl, ⟨rfl, rfl, rfl⟩, rfl⟩ := e'
      exact ⟨rfl, rfl⟩
  | cpy mat m n l =>
    cases hc : cpyCbOf h <;> simp only [CallReply, hc] at h1 h2
    · obtain ⟨rfl, rfl⟩ := h1
      obtain ⟨rfl, rfl⟩ := h2
      exact ⟨rfl, rfl⟩
    · obtain ⟨y, k, e, rfl⟩ := h1
      obtain ⟨y', k', e', rfl⟩ := h2
      rw [e] at e'
      simp only [ok_inj, Prod.mk.injEq] at e'
      obtain ⟨rfl, rfl, rfl⟩ := e'
      exact ⟨rfl, rfl⟩
  | upd json l =>
    cases hc : updCbOf h <;> simp only [CallReply, hc] at h1 h2
    · obtain ⟨rfl, rfl⟩ := h1
      obtain ⟨rfl, rfl⟩ := h2
      exact ⟨rfl, rfl⟩
    · obtain ⟨k, e, rfl⟩ := h1
      obtain ⟨k', e', rfl⟩ := h2
      rw [e] at e'
      simp only [ok_inj, Prod.mk.injEq] at e'
      obtain ⟨rfl, rfl⟩ := e'
      exact ⟨rfl, rfl⟩
  | _ => exact ⟨h1.1.trans h2.1.symm, h1.2.trans h2.2.symm⟩

theorem replies_unique {cs : List (EmuCall S)} : ∀ {h : List (EmuCall S)} {s s' t' : S} {rs qs : List EmuReply},
    Replies h s cs rs s' → Replies h s cs qs t' → rs = qs ∧ s' = t' := by
  induction cs with
  | nil =>
    rintro h s s' t' rs qs ⟨rfl, rfl⟩ ⟨rfl, rfl⟩
    exact ⟨rfl, rfl⟩
  | cons c cs ih =>
    rintro h s s' t' rs qs ⟨r, t, q, rfl, h1, h2⟩ ⟨r', u, q', rfl, h3, h4⟩
    obtain ⟨rfl, rfl⟩ := callReply_unique h1 h3
    obtain ⟨rfl, rfl⟩ := ih h2 h4
    exact ⟨rfl, rfl⟩

end Acs
