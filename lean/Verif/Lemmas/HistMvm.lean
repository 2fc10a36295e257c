import Verif.Lemmas.HistInv
import Verif.Lemmas.SafeXbar
import Verif.Lemmas.Frame
import Verif.Lemmas.DetXbar

/-! # Profiling during a multiplication -/

set_option linter.unusedSectionVars false

namespace Acs

open Finset Spec

section
variable {K : Type} [Field K] [LinearOrder K] [IsStrictOrderedRing K] [FloorRing K]
variable {E : Env K} {cfg : Cfg K} {c : Core K} {a : Aux K} {res vec mat : Vec Int} {m n k k' : Nat} {l : String}
variable {hs hs' hs'' : List (String × Hist K)} {adc : Adc}

/-- `k` values of layer `l` have been profiled. -/
structure Prof (cfg : Cfg K) (l : String) (k : Nat) (hs hs' : List (String × Hist K)) : Prop where
  on : cfg.adcProfile = true → seen hs' l = seen hs l + k
  off : cfg.adcProfile = false → hs' = hs
  else_ : ∀ l', l' ≠ l → hs'.lookup l' = hs.lookup l'

theorem Prof.refl : Prof cfg l 0 hs hs := ⟨fun _ => by simp, fun _ => rfl, fun _ _ => rfl⟩

theorem Prof.trans (h : Prof cfg l k hs hs') (h' : Prof cfg l k' hs' hs'') : Prof cfg l (k + k') hs hs'' :=
  ⟨fun e => by rw [h'.on e, h.on e]; push_cast; ring, fun e => (h'.off e).trans (h.off e),
    fun l' hl => (h'.else_ l' hl).trans (h.else_ l' hl)⟩

theorem Sat.anyway {α : Type} {x : C α} : Sat (fun _ => True) x fun _ => True := by
  cases x <;> trivial

theorem prof_convVec {t : Vec K} {s o : K} :
    Sat (fun _ => True) (convVec E cfg adc hs t m s o l) fun r => Prof cfg l m hs r.1 := by
  unfold convVec
  refine Sat.ite (fun _ => Sat.err trivial) fun _ => ?_
  refine Sat.bind (P := fun hs' => Prof cfg l m hs hs') ?_ fun hs' hp => Sat.bind Sat.anyway fun _ _ => hp
  refine Sat.ite (fun hq => Sat.intro_ok fun hs' hp => ?_) fun hq => ?_
  · obtain ⟨h1, h2⟩ := profileInputs_inv hp
    exact ⟨fun _ => h1, fun e => absurd (hq.symm.trans e) (by decide), h2⟩
  · exact ⟨fun e => absurd e hq, fun _ => rfl, fun _ _ => rfl⟩

theorem prof_tcStep {A : Mat K} {v : Vec Int} {s o : K} {t : Vec K} :
    Sat (fun _ => True) (tcStep E cfg c A v m n s o l t hs) fun r => Prof cfg l m hs r.1 := by
  unfold tcStep
  exact Sat.bind Sat.anyway fun _ _ => prof_convVec

theorem prof_tcSolve {v : Vec Int} {s1 s2 o : K} {p q : Vec K} :
    Sat (fun _ => True) (tcSolve E cfg c v m n s1 s2 o l p q hs) fun r => Prof cfg l (m + m) hs r.1 := by
  unfold tcSolve
  split
  · trivial
  · refine Sat.bind Sat.anyway fun _ _ => Sat.bind Sat.anyway fun _ _ => Sat.bind Sat.anyway fun _ _ => ?_
    exact Sat.bind prof_convVec fun r1 h1 => Sat.bind prof_convVec fun r2 h2 => h1.trans h2

theorem prof_bnn34 : Sat (fun _ => True) (bnn34Currents E cfg c a vec m n l) fun r =>
    Prof cfg l (m + m) a.hists r.1.hists := by
  unfold bnn34Currents
  refine Sat.bind Sat.anyway fun _ _ => Sat.bind Sat.anyway fun _ _ => Sat.bind Sat.anyway fun _ _ => ?_
  refine Sat.bind Sat.anyway fun _ _ => Sat.bind Sat.anyway fun _ _ => ?_
  exact Sat.bind prof_convVec fun r1 h1 => Sat.bind prof_convVec fun r2 h2 => h1.trans h2

/-- How many values a multiplication profiles. -/
theorem prof_aMvm : Sat (fun _ => True) (aMvm E cfg c a res vec m n l) fun r =>
    Prof cfg l (profiled c.mode * m) a.hists r.1.hists := by
  have e0 : 0 * m = 0 := Nat.zero_mul m
  have e1 : 1 * m = m := Nat.one_mul m
  have e2 : 2 * m = m + m := Nat.two_mul m
  have e4 : 4 * m = m + m + m + m := by ring
  have e4' : 4 * m = m + m + (m + m) := by ring
  unfold aMvm
  cases c.mode <;> simp only [profiled]
  · unfold aMvmIntI
    exact Sat.bind Sat.anyway fun _ _ => Sat.bind Sat.anyway fun _ _ => Sat.bind Sat.anyway fun _ _ => by rw [e0]; exact Prof.refl
  · unfold aMvmIntI
    exact Sat.bind Sat.anyway fun _ _ => Sat.bind Sat.anyway fun _ _ => Sat.bind Sat.anyway fun _ _ => by rw [e0]; exact Prof.refl
  · unfold aMvmIntII
    exact Sat.bind Sat.anyway fun _ _ => Sat.bind Sat.anyway fun _ _ => Sat.bind Sat.anyway fun _ _ => by rw [e0]; exact Prof.refl
  · unfold aMvmIntIII
    exact Sat.bind Sat.anyway fun _ _ => Sat.bind Sat.anyway fun _ _ => Sat.bind Sat.anyway fun _ _ =>
      Sat.bind Sat.anyway fun _ _ => Sat.bind Sat.anyway fun _ _ => by rw [e0]; exact Prof.refl
  · unfold aMvmIntIV
    exact Sat.bind Sat.anyway fun _ _ => Sat.bind Sat.anyway fun _ _ => by rw [e0]; exact Prof.refl
  · unfold aMvmIntV
    exact Sat.bind Sat.anyway fun _ _ => Sat.bind Sat.anyway fun _ _ => Sat.bind Sat.anyway fun _ _ =>
      Sat.bind Sat.anyway fun _ _ => by rw [e0]; exact Prof.refl
  · unfold aMvmBnnI
    exact Sat.bind Sat.anyway fun _ _ => Sat.bind Sat.anyway fun _ _ => Sat.bind Sat.anyway fun _ _ =>
      Sat.bind prof_convVec fun r h => Sat.bind Sat.anyway fun _ _ => by rw [e1]; exact h
  · unfold aMvmBnnII
    exact Sat.bind Sat.anyway fun _ _ => Sat.bind Sat.anyway fun _ _ => Sat.bind Sat.anyway fun _ _ =>
      Sat.bind prof_convVec fun r h => Sat.bind Sat.anyway fun _ _ => by rw [e1]; exact h
  · unfold aMvmBnnIII
    exact Sat.bind prof_bnn34 fun r h => Sat.bind Sat.anyway fun _ _ => by rw [e2]; exact h
  · unfold aMvmBnnIV
    exact Sat.bind prof_bnn34 fun r h => Sat.bind Sat.anyway fun _ _ => by rw [e2]; exact h
  · unfold aMvmBnnV
    exact Sat.bind Sat.anyway fun _ _ => Sat.bind Sat.anyway fun _ _ => Sat.bind Sat.anyway fun _ _ =>
      Sat.bind Sat.anyway fun _ _ => Sat.bind prof_convVec fun r h => Sat.bind Sat.anyway fun _ _ => by rw [e1]; exact h
  · unfold aMvmBnnVI
    exact Sat.bind Sat.anyway fun _ _ => Sat.bind Sat.anyway fun _ _ => Sat.bind Sat.anyway fun _ _ =>
      Sat.bind prof_convVec fun r h => Sat.bind Sat.anyway fun _ _ => by rw [e1]; exact h
  · unfold aMvmTnnI
    exact Sat.bind Sat.anyway fun _ _ => Sat.bind Sat.anyway fun _ _ => Sat.bind Sat.anyway fun _ _ =>
      Sat.bind prof_convVec fun r h => Sat.bind Sat.anyway fun _ _ => by rw [e1]; exact h
  · unfold aMvmTnnII
    exact Sat.bind Sat.anyway fun _ _ => Sat.bind Sat.anyway fun _ _ => Sat.bind Sat.anyway fun _ _ =>
      Sat.bind prof_convVec fun r h => Sat.bind Sat.anyway fun _ _ => Sat.bind Sat.anyway fun _ _ =>
      Sat.bind Sat.anyway fun _ _ => Sat.bind Sat.anyway fun _ _ =>
      Sat.bind prof_convVec fun r h' => Sat.bind Sat.anyway fun _ _ => by rw [e2]; exact h.trans h'
  · unfold aMvmTnnIII
    exact Sat.bind Sat.anyway fun _ _ => Sat.bind Sat.anyway fun _ _ => Sat.bind Sat.anyway fun _ _ =>
      Sat.bind prof_convVec fun r h => Sat.bind Sat.anyway fun _ _ => Sat.bind Sat.anyway fun _ _ =>
      Sat.bind Sat.anyway fun _ _ => Sat.bind Sat.anyway fun _ _ =>
      Sat.bind prof_convVec fun r h' => Sat.bind Sat.anyway fun _ _ => Sat.bind Sat.anyway fun _ _ => by
        rw [e2]; exact h.trans h'
  · unfold aMvmTnnIV
    refine Sat.ite (fun _ => Sat.err trivial) fun _ => ?_
    refine Sat.bind Sat.anyway fun _ _ => Sat.bind Sat.anyway fun _ _ => Sat.bind Sat.anyway fun _ _ => ?_
    refine Sat.bind Sat.anyway fun _ _ => Sat.bind Sat.anyway fun _ _ => Sat.bind Sat.anyway fun _ _ => ?_
    refine Sat.ite (fun _ => ?_) fun _ => ?_
    · exact Sat.bind prof_tcSolve fun r h => Sat.bind Sat.anyway fun _ _ => Sat.bind Sat.anyway fun _ _ =>
        Sat.bind prof_tcSolve fun r' h' => Sat.bind Sat.anyway fun _ _ => Sat.bind Sat.anyway fun _ _ =>
        Sat.bind Sat.anyway fun _ _ => by rw [e4']; exact h.trans h'
    · exact Sat.bind prof_tcStep fun r h => Sat.bind Sat.anyway fun _ _ => Sat.bind prof_tcStep fun r' h' =>
        Sat.bind Sat.anyway fun _ _ => Sat.bind prof_tcStep fun r3 h3 => Sat.bind Sat.anyway fun _ _ =>
        Sat.bind prof_tcStep fun r4 h4 => Sat.bind Sat.anyway fun _ _ => Sat.bind Sat.anyway fun _ _ => by
          rw [e4]; exact ((h.trans h').trans h3).trans h4
  · unfold aMvmTnnV
    refine Sat.ite (fun _ => Sat.err trivial) fun _ => ?_
    refine Sat.bind Sat.anyway fun _ _ => Sat.bind Sat.anyway fun _ _ => Sat.bind Sat.anyway fun _ _ => ?_
    refine Sat.bind Sat.anyway fun _ _ => Sat.bind Sat.anyway fun _ _ => ?_
    refine Sat.ite (fun _ => ?_) fun _ => ?_
    · exact Sat.bind prof_tcSolve fun r h => Sat.bind Sat.anyway fun _ _ => Sat.bind Sat.anyway fun _ _ =>
        Sat.bind prof_tcSolve fun r' h' => Sat.bind Sat.anyway fun _ _ => Sat.bind Sat.anyway fun _ _ =>
        Sat.bind Sat.anyway fun _ _ => by rw [e4']; exact h.trans h'
    · exact Sat.bind prof_tcStep fun r h => Sat.bind Sat.anyway fun _ _ => Sat.bind prof_tcStep fun r' h' =>
        Sat.bind Sat.anyway fun _ _ => Sat.bind prof_tcStep fun r3 h3 => Sat.bind Sat.anyway fun _ _ =>
        Sat.bind prof_tcStep fun r4 h4 => Sat.bind Sat.anyway fun _ _ => Sat.bind Sat.anyway fun _ _ => by
          rw [e4]; exact ((h.trans h').trans h3).trans h4

/-! ## Everything else keeps the histograms -/

theorem hists_dMvm : Sat (fun _ => True) (dMvm E cfg c a res vec m n) fun r => r.1.hists = a.hists := by
  unfold dMvm
  cases c.mode <;> simp only
  all_goals
    first
      | unfold dMvmIntI | unfold dMvmIntII | unfold dMvmIntIII | unfold dMvmIntIV | unfold dMvmIntV
      | unfold dMvmBnnI | unfold dMvmBnnII | unfold dMvmBnnIII | unfold dMvmBnnIV | unfold dMvmBnnV
      | unfold dMvmBnnVI | unfold dMvmTnnI | unfold dMvmTnnII | unfold dMvmTnnIII | unfold dMvmTnnIV
      | unfold dMvmTnnV
    repeat first
      | exact rfl
      | refine Sat.bind Sat.anyway fun _ _ => ?_
      | refine Sat.ite (fun _ => Sat.err trivial) fun _ => ?_

theorem hists_aWrite {mp : Mapper K} : Sat (fun _ => True) (aWrite E cfg mp m n) fun mp' =>
    mp'.aux.hists = mp.aux.hists := by
  unfold aWrite
  dsimp only
  split <;> exact Sat.bind Sat.anyway fun _ _ => Sat.bind Sat.anyway fun _ _ => rfl

theorem hists_addC2C {mp : Mapper K} : Sat (fun _ => True) (addC2C E cfg mp m n) fun mp' =>
    mp'.aux.hists = mp.aux.hists := by
  unfold addC2C
  exact Sat.bind Sat.anyway fun _ _ => rfl

theorem hists_removeC2C {mp : Mapper K} : Sat (fun _ => True) (removeC2C mp m n) fun mp' =>
    mp'.aux = mp.aux := by
  unfold removeC2C
  exact Sat.bind Sat.anyway fun _ _ => rfl

theorem hists_rdStep {x : Xbar K} : Sat (fun _ => True) (rdStep E cfg x m n) fun x' =>
    x'.mapper.aux.hists = x.mapper.aux.hists := by
  unfold rdStep
  split
  · refine Sat.ite (fun _ => Sat.err trivial) fun _ => Sat.ite (fun _ => ?_) fun _ => rfl
    split
    · trivial
    · exact Sat.bind Sat.anyway fun _ _ => rfl
  · refine Sat.ite (fun _ => Sat.err trivial) fun _ => Sat.ite (fun _ => ?_) fun _ => rfl
    split
    · trivial
    · refine Sat.bind Sat.anyway fun _ _ => ?_
      dsimp only
      refine Sat.ite (fun _ => ?_) fun _ => rfl
      unfold softwareRefresh
      exact Sat.bind Sat.anyway fun _ _ => Sat.bind Sat.anyway fun _ _ => Sat.bind Sat.anyway fun _ _ =>
        Sat.bind hists_aWrite fun mp hm => hm
  · split
    · trivial
    · refine Sat.bind Sat.anyway fun _ _ => Sat.ite (fun _ => Sat.err trivial) fun _ =>
        Sat.ite (fun _ => ?_) fun _ => rfl
      refine Sat.bind Sat.anyway fun r _ => Sat.bind (P := fun s : Mapper K × Rd K × Int => s.1.aux.hists = x.mapper.aux.hists) ?_ fun s hs => hs
      unfold rdCellRefresh
      exact Sat.bind Sat.anyway fun _ _ => Sat.ite (fun _ => Sat.bind Sat.anyway fun _ _ => rfl) fun _ => rfl

theorem hists_xWrite {x : Xbar K} : Sat (fun _ => True) (xWrite E cfg x mat m n) fun x' =>
    x'.mapper.aux.hists = x.mapper.aux.hists := by
  unfold xWrite
  refine Sat.bind (P := fun r : Mapper K × Option (Rd K) => r.1.aux.hists = x.mapper.aux.hists) ?_ fun r hr => ?_
  · unfold xWriteD dWrite
    refine Sat.ite (fun _ => ?_) fun _ => ?_
    · refine Sat.bind (P := fun mp : Mapper K => mp.aux.hists = x.mapper.aux.hists) (Sat.bind Sat.anyway fun _ _ => rfl) fun mp hm => ?_
      refine Sat.bind Sat.anyway fun _ _ => Sat.bind Sat.anyway fun _ _ => ?_
      split
      · trivial
      · exact Sat.bind Sat.anyway fun _ _ => Sat.bind Sat.anyway fun _ _ => hm
    · exact Sat.bind (P := fun mp : Mapper K => mp.aux.hists = x.mapper.aux.hists) (Sat.bind Sat.anyway fun _ _ => rfl) fun mp hm => hm
  · refine Sat.bind (P := fun mp : Mapper K => mp.aux.hists = x.mapper.aux.hists) ?_ fun mp hm => hm
    exact Sat.ite (fun _ => hr) fun _ => hists_aWrite.mono fun _ h => h.trans hr

/-- How many values a call profiles. -/
theorem prof_xMvm {x : Xbar K} (hm : x.mapper.core.mode = cfg.mode) :
    Sat (fun _ => True) (xMvm E cfg x res vec mat m n l) fun r =>
    Prof cfg l (if cfg.digitalOnly then 0 else profiled cfg.mode * m) x.mapper.aux.hists r.1.mapper.aux.hists := by
  unfold xMvm
  dsimp only
  refine Sat.ite (fun hd => ?_) fun hd => ?_
  · refine Sat.bind hists_dMvm fun r hr => ?_
    rw [if_pos hd]
    show Prof cfg l 0 x.mapper.aux.hists r.1.hists
    rw [hr]
    exact Prof.refl
  · rw [if_neg hd]
    refine Sat.bind (P := fun mp : Mapper K => mp.aux.hists = x.mapper.aux.hists ∧ mp.core.mode = cfg.mode) ?_ fun mp hmp => ?_
    · refine Sat.ite (fun _ => ?_) fun _ => ⟨rfl, hm⟩
      unfold addC2C
      exact Sat.bind Sat.anyway fun _ _ => ⟨rfl, hm⟩
    refine Sat.bind prof_aMvm fun r hr => ?_
    rw [hmp.1, hmp.2] at hr
    refine Sat.bind (P := fun mp' : Mapper K => mp'.aux = r.1) ?_ fun mp' hmp' => ?_
    · exact Sat.ite (fun _ => hists_removeC2C) fun _ => rfl
    refine Sat.bind (P := fun x' : Xbar K => x'.mapper.aux.hists = r.1.hists) ?_ fun x' hx' => ?_
    · refine Sat.ite (fun _ => hists_rdStep.mono fun x' hx' => ?_) fun _ => ?_
      · rw [hx', ← hmp']
      · show mp'.aux.hists = _
        rw [hmp']
    · show Prof cfg l _ _ x'.mapper.aux.hists
      rw [hx']; exact hr

theorem exec_prof {x x' : Xbar K} {ops : List Op} {rs : List (Vec Int)} (hs : Shape E cfg x)
    (h : exec E cfg x ops = .ok (x', rs)) :
    (cfg.adcProfile = true ∧ cfg.digitalOnly = false → ∀ l,
      seen x'.mapper.aux.hists l = seen x.mapper.aux.hists l + sampled cfg l ops) ∧
    (cfg.adcProfile = false ∨ cfg.digitalOnly = true → ∀ l,
      seen x'.mapper.aux.hists l = seen x.mapper.aux.hists l) := by
  induction ops generalizing x rs with
  | nil =>
    unfold exec at h
    rw [ok_inj, Prod.mk.injEq] at h
    obtain ⟨rfl, _⟩ := h
    exact ⟨fun _ l => by simp [sampled], fun _ _ => rfl⟩
  | cons op ops ih =>
    cases op with
    | write mat m n =>
      unfold exec at h
      rw [bind_eq_ok] at h
      obtain ⟨x1, h1, h⟩ := h
      have e := hists_xWrite.of_ok h1
      obtain ⟨i1, i2⟩ := ih (xWrite_shape hs h1) h
      rw [e] at i1 i2
      exact ⟨i1, i2⟩
    | mvm res vec mat m n l =>
      unfold exec at h
      rw [bind_eq_ok] at h
      obtain ⟨⟨x1, r1⟩, h1, h⟩ := h
      dsimp only at h
      rw [bind_eq_ok] at h
      obtain ⟨⟨x2, r2⟩, h2, h⟩ := h
      rw [ok_inj, Prod.mk.injEq] at h
      obtain ⟨rfl, _⟩ := h
      have e := (prof_xMvm (coreShape_mode hs.core)).of_ok h1
      obtain ⟨i1, i2⟩ := ih (xMvm_shape hs h1) h2
      have oth : ∀ l', l' ≠ l → seen x1.mapper.aux.hists l' = seen x.mapper.aux.hists l' := by
        intro l' hl'
        unfold seen
        rw [show x1.mapper.aux.hists.lookup l' = _ from e.else_ l' hl']
      refine ⟨fun hc l' => ?_, fun hc l' => ?_⟩
      · rw [i1 hc l', show sampled cfg l' (.mvm res vec mat m n l :: ops) =
          (if l = l' then profiled cfg.mode * m else 0) + sampled cfg l' ops from rfl]
        by_cases el : l = l'
        · subst el
          have := e.on hc.1
          rw [if_neg (by simp [hc.2])] at this
          rw [if_pos rfl, show seen x1.mapper.aux.hists l = _ from this]
          push_cast; ring
        · rw [if_neg el, oth l' (Ne.symm el)]; simp
      · rw [i2 hc l']
        by_cases el : l' = l
        · subst el
          cases hp : cfg.adcProfile with
          | false => rw [show x1.mapper.aux.hists = _ from e.off hp]
          | true =>
            have hd : cfg.digitalOnly = true := by
              rcases hc with hc | hc
              · rw [hp] at hc; cases hc
              · exact hc
            have := e.on hp
            rw [if_pos hd] at this
            rw [show seen x1.mapper.aux.hists l' = _ from this]; simp
        · exact oth l' el

end

end Acs
