import Verif.Lemmas.ApiInv
import Verif.Lemmas.HistMvm
import Verif.SpecProfile

/-! # What the interface calls do to the global objects of the library -/

set_option linter.unusedSectionVars false

namespace Acs

open Spec

section
variable {K : Type} [Field K] [LinearOrder K] [IsStrictOrderedRing K] [FloorRing K]
variable {E : Env K} {w w' : World K} {α β : Type} {P : World K → Prop} {Q : α → Prop} {Q' : β → Prop}

/-- Calls that return satisfy `Q`, calls that throw leave a state satisfying `P`. -/
def RSat (P : World K → Prop) (Q : α → Prop) : R K α → Prop
  | .ok a => Q a
  | .error (.threw w) => P w
  | .error (.dead _) => True

theorem RSat.bind {x : R K α} {f : α → R K β} (h : RSat P Q x) (h' : ∀ a, Q a → RSat P Q' (f a)) :
    RSat P Q' (x >>= f) := by
  rcases x with (_ | _) | a
  · trivial
  · exact h
  · exact h' a h

theorem RSat.map {x : R K α} {f : α → β} (h : RSat P Q x) (h' : ∀ a, Q a → Q' (f a)) :
    RSat P Q' (f <$> x) := by
  rcases x with (_ | _) | a
  · trivial
  · exact h
  · exact h' a h

theorem RSat.lift {x : C α} (hw : P w) (h : ∀ a, x = .ok a → Q a) : RSat P Q (Acs.lift w x) := by
  unfold Acs.lift
  split
  · exact h _ rfl
  · exact hw
  · trivial

theorem RSat.mono {Q₂ : α → Prop} {x : R K α} (h : RSat P Q x) (h' : ∀ a, Q a → Q₂ a) : RSat P Q₂ x := by
  rcases x with (_ | _) | a
  · trivial
  · exact h
  · exact h' a h

/-- The global objects of two states agree. -/
def Globals (w w' : World K) : Prop := profileOf w' = profileOf w ∧ drawn w' = drawn w

theorem Globals.drop : Globals w w.drop := by
  rcases w with ⟨_, _, _ | _, _, _⟩ <;> exact ⟨rfl, rfl⟩

theorem drop_globals (w : World K) : w.drop.hists = profileOf w ∧ w.drop.rng = drawn w := by
  unfold profileOf drawn World.drop
  cases w.xbar <;> exact ⟨rfl, rfl⟩

theorem globals_new : RSat (Globals w) (fun x => x.mapper.aux.hists = profileOf w ∧ x.mapper.aux.rng = drawn w)
    (newXbar E w) := by
  unfold newXbar
  refine RSat.lift ⟨rfl, rfl⟩ fun x hx => ?_
  rw [(mkXbar_inv hx).2.1, (drop_globals w).1, (drop_globals w).2]
  exact ⟨rfl, rfl⟩

theorem Globals.same (h : w'.xbar = w.xbar) (h1 : w'.hists = w.hists) (h2 : w'.rng = w.rng) : Globals w w' := by
  unfold Globals profileOf drawn
  rw [h, h1, h2]
  exact ⟨rfl, rfl⟩

theorem Globals.trans {w'' : World K} (h : Globals w w') (h' : Globals w' w'') : Globals w w'' :=
  ⟨h'.1.trans h.1, h'.2.trans h.2⟩

theorem RSat.throws {P' : World K → Prop} {x : R K α} (h : RSat P Q x) (h' : ∀ a, P a → P' a) : RSat P' Q x := by
  rcases x with (_ | _) | a
  · trivial
  · exact h' _ h
  · exact h

theorem globals_load {f : File K} : RSat (Globals w) (fun r => Globals w r.1) (loadCfg E f w) := by
  unfold loadCfg
  split
  · exact ⟨rfl, rfl⟩
  · trivial
  · exact Globals.same rfl rfl rfl
  · exact RSat.bind (RSat.lift (Q := fun _ => True) (Globals.same rfl rfl rfl) fun _ _ => trivial)
      fun c _ => Globals.same rfl rfl rfl

theorem globals_release : RSat (Globals w) (fun _ => True) (release w) := by
  unfold release
  split
  · trivial
  · exact RSat.lift ⟨rfl, rfl⟩ fun _ _ => trivial

theorem globals_set {f : File K} : RSat (Globals w) (Globals w) (setConfig E f w) := by
  unfold setConfig
  refine RSat.bind globals_release fun _ _ => ?_
  refine RSat.bind (globals_load.throws fun a h => Globals.drop.trans h) fun r hr => ?_
  refine RSat.bind (globals_new.throws fun a h => (Globals.drop.trans hr).trans h) fun x hx => ?_
  have := Globals.drop.trans hr
  exact ⟨hx.1.trans this.1, hx.2.trans this.2⟩

theorem globals_updateCfg {j : Json K} : RSat (Globals w) (fun r => Globals w r.1 ∧ r.1.xbar = w.xbar)
    (updateCfg E j w) := by
  unfold updateCfg
  refine RSat.bind (RSat.lift (Q := fun _ => True) ⟨rfl, rfl⟩ fun _ _ => trivial) fun s _ => ?_
  split
  · exact RSat.bind (RSat.lift (Q := fun _ => True) ⟨rfl, rfl⟩ fun _ _ => trivial) fun c _ =>
      ⟨Globals.same rfl rfl rfl, rfl⟩
  · exact ⟨Globals.same rfl rfl rfl, rfl⟩

theorem globals_update {d : Doc K} : RSat (Globals w) (fun r => Globals w r.1) (updateConfig E d w) := by
  unfold updateConfig
  split
  · exact ⟨rfl, rfl⟩
  · split
    · exact ⟨rfl, rfl⟩
    · trivial
    · refine RSat.bind globals_updateCfg fun r hr => ?_
      split
      · refine RSat.bind (globals_new.throws fun a h => hr.1.trans h) fun x hx => ?_
        refine RSat.bind (globals_release.throws fun a h => hr.1.trans h) fun _ _ => ?_
        exact ⟨hx.1.trans hr.1.1, hx.2.trans hr.1.2⟩
      · exact hr.1

theorem globals_updatePb {d : Option (Doc K)} : RSat (Globals w) (Globals w) (updateConfigPb E d w) := by
  unfold updateConfigPb
  split
  · exact ⟨rfl, rfl⟩
  · exact RSat.bind globals_update fun r hr => hr

theorem profile_cpy {mat : Vec Int} {m n : Int} : RSat (fun w' => profileOf w' = profileOf w)
    (fun r => profileOf r.1 = profileOf w) (cpyMtrx E mat m n w) := by
  unfold cpyMtrx
  split
  · rfl
  · next x hx =>
    split
    · rfl
    · refine RSat.bind (RSat.lift (Q := fun x' => x'.mapper.aux.hists = x.mapper.aux.hists) rfl
        fun x' h => hists_xWrite.of_ok h) fun x' h => ?_
      show x'.mapper.aux.hists = profileOf w
      rw [h]
      unfold profileOf
      rw [hx]

end

end Acs
