import Verif.Lemmas.AMvmIff
import Verif.Lemmas.RefineA
import Verif.Props.EndToEnd
import Verif.Props.Seen

/-! # Which multiplications on an analog crossbar return (C104) -/

set_option linter.unusedSectionVars false

namespace Acs.Props

open Spec Finset

section
variable {K : Type} [Field K] [LinearOrder K] [IsStrictOrderedRing K] [FloorRing K]
variable {E : Env K} {w w' : World K} {hs : List Op} {mat vec res r : Vec Int} {m n k : Nat} {l : String}

/-- C104.  A multiplication on an analog crossbar, whatever it simulates, that returns 0 had dimensions that fit, buffers
that hold all inputs and results, and legal inputs if the mapping looks at them. -/
theorem C104_reads (h : Session E hs w) (hok : w.cfg.mode.family = .int → CfgOk w.cfg) (hd : w.cfg.digitalOnly = false)
    (hm : m < 2147483648 ∧ n < 2147483648) (h' : exeMvm E res vec mat m n l w = .ok (w', r, 0)) :
    Accepted w.cfg m n ∧ n ≤ vec.size ∧ m ≤ res.size ∧ (checksX w.cfg.mode → LegalVec w.cfg vec n) := by
  obtain ⟨hi, x, hx⟩ := session_inv h
  exact exeMvm_reads_a hx.xbar (hi.xbar x hx.xbar).core.mode hok hd hm h'

/-- C104.  On an ideal crossbar this is enough, and the products are exact. -/
theorem C104_mvm (hE : ExactArith E) (h : Settled E hs w) (hok : CfgOk w.cfg) (hid : Ideal w.cfg)
    (hinf : w.cfg.adcType = .inf) (hgcc : w.cfg.mode = .iOffsWDiff → E.strict = false) (hm : m < 2147483648 ∧ n < 2147483648)
    (hv : ∀ i j v, lastWrite hs i j = some v → LegalW w.cfg v) (hk : keepsRowSums w.cfg.mode → WidthIs n hs)
    (hw : ∀ i j, i < m → j < n → (lastWrite hs i j).isSome) (hr : Room w.cfg res m n)
    (hX : ¬checksX w.cfg.mode → LegalVec w.cfg vec n) :
    ((∃ w' r, exeMvm E res vec mat m n l w = .ok (w', r, 0)) ↔
      Accepted w.cfg m n ∧ n ≤ vec.size ∧ m ≤ res.size ∧ LegalVec w.cfg vec n) ∧
    ∀ w' r, exeMvm E res vec mat m n l w = .ok (w', r, 0) → Adds r res (stored hs) vec m n := by
  obtain ⟨x, hx, hrun⟩ := settled_runs h
  have key : Accepted w.cfg m n → n ≤ vec.size → m ≤ res.size → LegalVec w.cfg vec n →
      ∃ w' r, exeMvm E res vec mat m n l w = .ok (w', r, 0) ∧ Adds r res (stored hs) vec m n := by
    intro h1 h2 h3 h4
    obtain ⟨x', rs, h5, h6⟩ := exec_refines_inf (w := n) (ops := [.mvm res vec mat m n l]) hE hok hid hinf
      hgcc hrun ⟨hv, hk⟩ ⟨⟨h1, h3, h2, h4, hr, hw, fun _ => rfl⟩, trivial⟩
    cases h6 with
    | mvm ha ht =>
      rw [exec, bind_eq_ok] at h5
      obtain ⟨p, h7, h8⟩ := h5
      rw [bind_eq_ok] at h8
      obtain ⟨p', h8, h9⟩ := h8
      have e : p.2 = _ := (List.cons.inj (Prod.mk.inj (Except.ok.inj h9)).2).1
      refine ⟨{ w with xbar := some p.1 }, p.2, ?_, by rw [e]; exact ha⟩
      unfold exeMvm
      rw [hx]
      dsimp only
      rw [if_neg (not_tooBig h1 hm), toSize_cast hm.1, toSize_cast hm.2, h7]
      rfl
  have back : ∀ w' r, exeMvm E res vec mat m n l w = .ok (w', r, 0) →
      Accepted w.cfg m n ∧ n ≤ vec.size ∧ m ≤ res.size ∧ LegalVec w.cfg vec n := fun w' r h1 => by
    obtain ⟨a, b, c, d⟩ := exeMvm_reads_a hx (runs_shape hrun).core.mode (fun _ => hok) hid.analog hm h1
    exact ⟨a, b, c, (em (checksX w.cfg.mode)).elim d hX⟩
  refine ⟨⟨fun ⟨w', r, h1⟩ => back w' r h1, fun ⟨a, b, c, d⟩ => ?_⟩, fun w' r h1 => ?_⟩
  · obtain ⟨w', r, h1, _⟩ := key a b c d
    exact ⟨w', r, h1⟩
  · obtain ⟨a, b, c, d⟩ := back w' r h1
    obtain ⟨w'', r', h2, h3⟩ := key a b c d
    rw [h1] at h2
    cases h2
    exact h3

end

/-- An ideal `BNN_VI` carries out the multiplication with `1, -1, 1` and none with an input 0 or with two inputs. -/
example : ∃ w, Settled Ex.env [.write Ex.mat 2 3] w ∧ Session Ex.env [.write Ex.mat 2 3] w ∧ w.cfg.mode = .bnn6 ∧
    (∃ w' r, exeMvm Ex.env Ex.res Ex.vec Ex.mat (2 : Nat) (3 : Nat) "" w = .ok (w', r, 0)) ∧
    (¬∃ w' r, exeMvm Ex.env Ex.res (Vec.ofList [1, 0, 1]) Ex.mat (2 : Nat) (3 : Nat) "" w = .ok (w', r, 0)) ∧
    ¬∃ w' r, exeMvm Ex.env Ex.res (Vec.ofList [1, 1]) Ex.mat (2 : Nat) (3 : Nat) "" w = .ok (w', r, 0) := by
  obtain ⟨p, hp, hq⟩ := Ex.goes_spec (x := setConfig Ex.env (.good (Ex.analog .bnn6)) world0 >>= fun w =>
    cpyMtrx Ex.env Ex.mat (2 : Nat) (3 : Nat) w) (p := fun q => decide (q.2 = 0 ∧ q.1.cfg = Ex'.loaded .bnn6 10 0))
    (by decide +kernel)
  obtain ⟨w, z⟩ := p
  obtain ⟨w0, h1, h2⟩ := rbind_ok.1 hp
  obtain ⟨rfl, hc⟩ := of_decide_eq_true hq
  dsimp only at hc h2
  have hs : Settled Ex.env [.write Ex.mat 2 3] w := .write (.load h1) (by decide) h2
  have hl := Ex'.loaded_legal (md := .bnn6) rfl 10 0
  have key : ∀ vec, _ := fun vec => C104_mvm (res := Ex.res) (vec := vec) (mat := Ex.mat) (m := 2) (n := 3) (l := "")
    Ex.env_exact hs (by rw [hc]; rfl)
    (by rw [hc]; exact ⟨rfl, rfl, rfl, rfl, rfl, Ex.quiet .bnn6, by show (5 : ℚ) ≠ 10; norm_num, fun h => by cases h⟩)
    (by rw [hc]; rfl) (fun _ => rfl) (by decide)
    (fun i j v hv => by
      rw [hc]
      by_cases hij : i < 2 ∧ j < 3
      · simp only [lastWrite] at hv
        rw [if_pos hij] at hv
        rw [← Option.some.inj hv]
        exact hl.1.vals i j hij.1 hij.2
      · simp only [lastWrite] at hv
        rw [if_neg hij] at hv
        cases hv)
    (fun h => by rw [hc] at h; exact h.elim) (fun i j hi hj => by simp [lastWrite, hi, hj]) (by rw [hc]; exact hl.2.1.room)
    (fun h => absurd (by rw [hc]; trivial) h)
  have hv : LegalVec w.cfg Ex.vec 3 := by rw [hc]; exact hl.2.1.vals
  refine ⟨w, hs, .write (.load h1) (by decide) h2, by rw [hc]; rfl,
    (key Ex.vec).1.2 ⟨by rw [hc]; exact hl.1.dims, by decide, by decide, hv⟩, fun h => ?_, fun h => ?_⟩
  · have := ((key _).1.1 h).2.2.2 1 (by decide)
    rw [hc] at this
    exact absurd this (by show ¬((0 : Int) = 1 ∨ (0 : Int) = -1); decide)
  · exact absurd ((key _).1.1 h).2.1 (by decide)

/-- A noisy differential integer crossbar carries out the multiplication after a write, and cannot with two inputs. -/
example : ∃ w w' r, Session Ex.env [.write Ex.mat 2 3] w ∧ w.cfg.mode = .iDiffWDiff1 ∧ 0 < w.cfg.hrsNoise ∧
    exeMvm Ex.env Ex.res Ex.vec Ex.mat (2 : Nat) (3 : Nat) "" w = .ok (w', r, 0) ∧
    ¬∃ w' r, exeMvm Ex.env Ex.res (Vec.ofList [1, 1]) Ex.mat (2 : Nat) (3 : Nat) "" w = .ok (w', r, 0) := by
  obtain ⟨p, hp, hq⟩ := Ex.goes_spec (x := setConfig Ex.env (.good (Ex.analog .iDiffWDiff1 [("HRS_NOISE", .int 1)])) world0
    >>= fun w => cpyMtrx Ex.env Ex.mat (2 : Nat) (3 : Nat) w >>= fun a =>
      exeMvm Ex.env Ex.res Ex.vec Ex.mat (2 : Nat) (3 : Nat) "" a.1 >>= fun b => pure (a, b))
    (p := fun q => decide (q.1.2 = 0 ∧ q.2.2.2 = 0 ∧ q.1.1.cfg = { Ex'.loaded .iDiffWDiff1 10 0 with hrsNoise := 1, wBit := 3, iBit := 3 }))
    (by decide +kernel)
  obtain ⟨⟨w, z⟩, w', r, z'⟩ := p
  obtain ⟨w0, h1, h2⟩ := rbind_ok.1 hp
  obtain ⟨a, h2', h2⟩ := rbind_ok.1 h2
  obtain ⟨b, h3, h4⟩ := rbind_ok.1 h2
  cases h4
  obtain ⟨rfl, rfl, hc⟩ := of_decide_eq_true hq
  dsimp only at hc h2' h3
  have hs : Session Ex.env [.write Ex.mat 2 3] w := .write (.load h1) (by decide) h2'
  refine ⟨w, w', r, hs, by rw [hc]; rfl, by rw [hc]; show (0 : ℚ) < 1; norm_num, h3, fun ⟨_, _, h⟩ => ?_⟩
  exact absurd (C104_reads hs (fun _ => by rw [hc]; show _ ∧ _; decide) (by rw [hc]; rfl) (by decide) h).2.1 (by decide)

end Acs.Props
