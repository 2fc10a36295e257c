import Verif.Lemmas.HistMvm

/-! # Profiling does not influence anything else -/

set_option linter.unusedSectionVars false

namespace Acs

open Spec

/-- If `x` ends normally then so does `y`, with a related result. -/
def Lead {α β : Type} (R : α → β → Prop) (x : C α) (y : C β) : Prop := ∀ a, x = .ok a → ∃ b, y = .ok b ∧ R a b

section
variable {α β γ δ : Type}

theorem Lead.bind {x : C α} {y : C β} {f : α → C γ} {g : β → C δ} {P : α → β → Prop} {Q : γ → δ → Prop}
    (h : Lead P x y) (h' : ∀ a b, P a b → Lead Q (f a) (g b)) : Lead Q (x >>= f) (y >>= g) := by
  intro c hc
  rw [bind_eq_ok] at hc
  obtain ⟨a, ha, hc⟩ := hc
  obtain ⟨b, hb, hab⟩ := h a ha
  obtain ⟨d, hd, hq⟩ := h' a b hab c hc
  exact ⟨d, by rw [hb, ok_bind, hd], hq⟩

theorem Lead.refl {x : C α} : Lead Eq x x := fun a ha => ⟨a, ha, rfl⟩

theorem Lead.same {x : C α} {f : α → C γ} {g : α → C δ} {Q : γ → δ → Prop}
    (h : ∀ a, Lead Q (f a) (g a)) : Lead Q (x >>= f) (x >>= g) :=
  Lead.bind Lead.refl fun a _ e => e ▸ h a

theorem Lead.ok {a : α} {b : β} {Q : α → β → Prop} (h : Q a b) : Lead Q (.ok a) (.ok b) :=
  fun c hc => ⟨b, rfl, by rw [← ok_inj.1 hc]; exact h⟩

theorem Lead.err {e : Fault} {y : C β} {Q : α → β → Prop} : Lead Q (.error e) y := fun _ hc => (nomatch hc)

theorem Lead.ite {p : Prop} [Decidable p] {x x' : C α} {y y' : C β} {Q : α → β → Prop}
    (h : p → Lead Q x y) (h' : ¬p → Lead Q x' y') :
    Lead Q (if p then x else x') (if p then y else y') := by
  split
  · next hp => exact h hp
  · next hp => exact h' hp

end

section
variable {K : Type} [Field K] [LinearOrder K] [IsStrictOrderedRing K] [FloorRing K]
variable {E : Env K} {cfg : Cfg K} {c : Core K} {a : Aux K} {res vec mat : Vec Int} {m n : Nat} {l : String}
variable {hs hs0 : List (String × Hist K)} {adc : Adc}

/-- The configuration without profiling. -/
abbrev Cfg.blind (cfg : Cfg K) : Cfg K := { cfg with adcProfile := false }

theorem lead_convVec {t : Vec K} {s o : K} : Lead (fun r r' => r' = (hs0, r.2))
    (convVec E cfg adc hs t m s o l) (convVec E cfg.blind adc hs0 t m s o l) := by
  unfold convVec
  refine Lead.ite (fun _ => Lead.err) fun _ => ?_
  refine Lead.bind (P := fun _ b => b = hs0) ?_ fun _ b hb => ?_
  · intro a _
    exact ⟨hs0, rfl, rfl⟩
  · subst hb
    exact Lead.same fun v => Lead.ok rfl

theorem lead_tcStep {A : Mat K} {v : Vec Int} {s o : K} {t : Vec K} : Lead (fun r r' => r' = (hs0, r.2))
    (tcStep E cfg c A v m n s o l t hs) (tcStep E cfg.blind c A v m n s o l t hs0) := by
  unfold tcStep
  exact Lead.same fun _ => lead_convVec

theorem lead_tcSolve {v : Vec Int} {s1 s2 o : K} {p q : Vec K} : Lead (fun r r' => r' = (hs0, r.2))
    (tcSolve E cfg c v m n s1 s2 o l p q hs) (tcSolve E cfg.blind c v m n s1 s2 o l p q hs0) := by
  unfold tcSolve
  split
  · exact Lead.err
  · refine Lead.same fun _ => Lead.same fun _ => Lead.same fun _ => ?_
    refine Lead.bind lead_convVec fun r r' h => ?_
    subst h
    refine Lead.bind lead_convVec fun r r' h => ?_
    subst h
    exact Lead.ok rfl

/-- The scratch state with other histograms. -/
abbrev Aux.swap (a : Aux K) (hs0 : List (String × Hist K)) : Aux K := { a with hists := hs0 }

theorem lead_bnn34 : Lead (fun r r' => r' = (r.1.swap hs0, r.2)) (bnn34Currents E cfg c a vec m n l)
    (bnn34Currents E cfg.blind c (a.swap hs0) vec m n l) := by
  unfold bnn34Currents
  refine Lead.same fun _ => Lead.same fun _ => Lead.same fun _ => Lead.same fun _ => Lead.same fun _ => ?_
  refine Lead.bind lead_convVec fun r r' h => ?_
  subst h
  refine Lead.bind lead_convVec fun r r' h => ?_
  subst h
  exact Lead.ok rfl

/-- One step of the comparison. -/
macro "lead_step" : tactic => `(tactic| first
  | exact Lead.err
  | exact Lead.ok rfl
  | (refine Lead.bind lead_convVec fun r r' h => ?_; subst h; dsimp only)
  | (refine Lead.bind lead_tcStep fun r r' h => ?_; subst h; dsimp only)
  | (refine Lead.bind lead_tcSolve fun r r' h => ?_; subst h; dsimp only)
  | (refine Lead.bind lead_bnn34 fun r r' h => ?_; subst h; dsimp only)
  | refine Lead.same fun _ => ?_
  | refine Lead.ite (fun _ => ?_) fun _ => ?_)

/-- A multiplication without profiling. -/
theorem lead_aMvm : Lead (fun r r' => r' = (r.1.swap hs0, r.2)) (aMvm E cfg c a res vec m n l)
    (aMvm E cfg.blind c (a.swap hs0) res vec m n l) := by
  unfold aMvm
  cases c.mode <;> simp only
  · unfold aMvmIntI; repeat lead_step
  · unfold aMvmIntI; repeat lead_step
  · unfold aMvmIntII; repeat lead_step
  · unfold aMvmIntIII; repeat lead_step
  · unfold aMvmIntIV; repeat lead_step
  · unfold aMvmIntV; repeat lead_step
  · unfold aMvmBnnI; repeat lead_step
  · unfold aMvmBnnII; repeat lead_step
  · unfold aMvmBnnIII; repeat lead_step
  · unfold aMvmBnnIV; repeat lead_step
  · unfold aMvmBnnV; repeat lead_step
  · unfold aMvmBnnVI; repeat lead_step
  · unfold aMvmTnnI; repeat lead_step
  · unfold aMvmTnnII; repeat lead_step
  · unfold aMvmTnnIII; repeat lead_step
  · unfold aMvmTnnIV; repeat lead_step
  · unfold aMvmTnnV; repeat lead_step

/-- A crossbar with other histograms. -/
abbrev Xbar.swap (x : Xbar K) (hs0 : List (String × Hist K)) : Xbar K :=
  { x with mapper := ⟨x.mapper.core, x.mapper.aux.swap hs0⟩ }

abbrev Mapper.swap (mp : Mapper K) (hs0 : List (String × Hist K)) : Mapper K := ⟨mp.core, mp.aux.swap hs0⟩

theorem lead_dMvm : Lead (fun r r' => r' = (r.1.swap hs0, r.2)) (dMvm E cfg c a res vec m n)
    (dMvm E cfg.blind c (a.swap hs0) res vec m n) := by
  unfold dMvm
  cases c.mode <;> simp only
  · unfold dMvmIntI; repeat lead_step
  · unfold dMvmIntI; repeat lead_step
  · unfold dMvmIntII; repeat lead_step
  · unfold dMvmIntIII; repeat lead_step
  · unfold dMvmIntIV; repeat lead_step
  · unfold dMvmIntV; repeat lead_step
  · unfold dMvmBnnI; repeat lead_step
  · unfold dMvmBnnII; repeat lead_step
  · unfold dMvmBnnIII; repeat lead_step
  · unfold dMvmBnnIV; repeat lead_step
  · unfold dMvmBnnV; repeat lead_step
  · unfold dMvmBnnVI; repeat lead_step
  · unfold dMvmTnnI; repeat lead_step
  · unfold dMvmTnnII; repeat lead_step
  · unfold dMvmTnnIII; repeat lead_step
  · unfold dMvmTnnIV; repeat lead_step
  · unfold dMvmTnnV; repeat lead_step

theorem lead_aWrite {mp : Mapper K} : Lead (fun r r' => r' = r.swap hs0) (aWrite E cfg mp m n)
    (aWrite E cfg.blind (mp.swap hs0) m n) := by
  unfold aWrite
  dsimp only
  split <;> exact Lead.same fun _ => Lead.same fun _ => Lead.ok rfl

theorem lead_xWrite {x : Xbar K} : Lead (fun r r' => r' = r.swap hs0) (xWrite E cfg x mat m n)
    (xWrite E cfg.blind (x.swap hs0) mat m n) := by
  unfold xWrite
  refine Lead.bind (P := fun r r' => r' = (r.1.swap hs0, r.2)) ?_ fun r r' hr => ?_
  · unfold xWriteD dWrite
    refine Lead.ite (fun _ => ?_) fun _ => ?_
    · refine Lead.bind (P := fun r r' => r' = r.swap hs0) (Lead.same fun _ => Lead.ok rfl) fun mp mp' hm => ?_
      subst hm
      refine Lead.same fun _ => Lead.same fun _ => ?_
      cases x.rd with
      | none => exact Lead.err
      | some rd => exact Lead.same fun _ => Lead.same fun _ => Lead.ok rfl
    · refine Lead.bind (P := fun r r' => r' = r.swap hs0) (Lead.same fun _ => Lead.ok rfl) fun mp mp' hm => ?_
      subst hm
      exact Lead.ok rfl
  · subst hr
    refine Lead.bind (P := fun r r' => r' = r.swap hs0) ?_ fun mp mp' hm => ?_
    · exact Lead.ite (fun _ => Lead.ok rfl) fun _ => lead_aWrite
    · subst hm
      exact Lead.ok rfl

theorem lead_rdStep {x : Xbar K} : Lead (fun r r' => r' = r.swap hs0) (rdStep E cfg x m n)
    (rdStep E cfg.blind (x.swap hs0) m n) := by
  unfold rdStep
  dsimp only
  cases cfg.strategy <;> dsimp only
  · refine Lead.ite (fun _ => Lead.err) fun _ => Lead.ite (fun _ => ?_) fun _ => Lead.ok rfl
    cases x.rd with
    | none => exact Lead.err
    | some rd => exact Lead.same fun _ => Lead.ok rfl
  · refine Lead.ite (fun _ => Lead.err) fun _ => Lead.ite (fun _ => ?_) fun _ => Lead.ok rfl
    cases x.rd with
    | none => exact Lead.err
    | some rd =>
      refine Lead.same fun _ => ?_
      refine Lead.ite (fun _ => ?_) fun _ => Lead.ok rfl
      unfold softwareRefresh
      refine Lead.same fun _ => Lead.same fun _ => Lead.same fun _ => ?_
      refine Lead.bind lead_aWrite fun mp mp' hm => ?_
      subst hm
      exact Lead.ok rfl
  · cases x.rd with
    | none => exact Lead.err
    | some rd =>
      refine Lead.same fun _ => Lead.ite (fun _ => Lead.err) fun _ => Lead.ite (fun _ => ?_) fun _ => Lead.ok rfl
      refine Lead.same fun r => Lead.bind (P := fun r r' => r' = (r.1.swap hs0, r.2)) ?_ fun s s' hs => ?_
      · unfold rdCellRefresh
        refine Lead.same fun _ => Lead.ite (fun _ => Lead.same fun _ => Lead.ok rfl) fun _ => Lead.ok rfl
      · subst hs
        exact Lead.ok rfl

theorem lead_xMvm {x : Xbar K} : Lead (fun r r' => r' = (r.1.swap hs0, r.2)) (xMvm E cfg x res vec mat m n l)
    (xMvm E cfg.blind (x.swap hs0) res vec mat m n l) := by
  unfold xMvm
  dsimp only
  refine Lead.ite (fun _ => ?_) fun _ => ?_
  · refine Lead.bind lead_dMvm fun r r' h => ?_
    subst h
    exact Lead.ok rfl
  · refine Lead.bind (P := fun r r' => r' = r.swap hs0) ?_ fun mp mp' hm => ?_
    · refine Lead.ite (fun _ => ?_) fun _ => Lead.ok rfl
      unfold addC2C
      exact Lead.same fun _ => Lead.ok rfl
    subst hm
    refine Lead.bind lead_aMvm fun r r' h => ?_
    subst h
    refine Lead.bind (P := fun r r' => r' = r.swap hs0) ?_ fun mp mp' hm => ?_
    · refine Lead.ite (fun _ => ?_) fun _ => Lead.ok rfl
      unfold removeC2C
      exact Lead.same fun _ => Lead.ok rfl
    subst hm
    refine Lead.bind (P := fun r r' => r' = r.swap hs0) ?_ fun x x' hx => ?_
    · exact Lead.ite (fun _ => lead_rdStep) fun _ => Lead.ok rfl
    · subst hx
      exact Lead.ok rfl

theorem lead_exec {x : Xbar K} {ops : List Op} : Lead (fun r r' => r' = (r.1.swap hs0, r.2)) (exec E cfg x ops)
    (exec E cfg.blind (x.swap hs0) ops) := by
  induction ops generalizing x with
  | nil => exact Lead.ok rfl
  | cons op ops ih =>
    cases op with
    | write mat m n =>
      unfold exec
      refine Lead.bind lead_xWrite fun x x' hx => ?_
      subst hx
      exact ih
    | mvm res vec mat m n l =>
      unfold exec
      refine Lead.bind lead_xMvm fun r r' hr => ?_
      subst hr
      refine Lead.bind ih fun s s' hs => ?_
      subst hs
      exact Lead.ok rfl

theorem lead_mkXbar {rng : Nat} : Lead (fun r r' => r' = r.swap hs0) (mkXbar E cfg rng hs)
    (mkXbar E cfg.blind rng hs0) := by
  unfold mkXbar
  refine Lead.bind (P := fun r r' => r' = r.swap hs0) ?_ fun mp mp' hm => ?_
  · unfold mkMapper
    exact Lead.same fun _ => Lead.ok rfl
  · subst hm
    exact Lead.same fun _ => Lead.ok rfl

end

end Acs
