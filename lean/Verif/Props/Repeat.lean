import Verif.Lemmas.DetXbar
import Verif.Props.Ex

/-! # Repeated multiplications (C37) -/

set_option linter.unusedSectionVars false

namespace Acs.Props

open Acs.Spec

section
variable {K : Type} [Field K] [LinearOrder K] [IsStrictOrderedRing K] [FloorRing K]
variable {E : Env K} {cfg : Cfg K} {x y x' : Xbar K} {res vec mat mat' r : Vec Int} {m n : Nat}
variable {l : String} {h : List Op}

/-- C37.  Without cycle-to-cycle variation and read disturb — any mapping, any converter, with or without
parasitics, any history and any values — a multiplication that is repeated after any number of other
multiplications returns the same buffer, and the cells are what they were before.  With
profiling switched on the repetition may fail because of the profile, but cannot return another result. -/
theorem C37_repeatable (hq : cfg.digitalOnly = true ∨ cfg.c2c = false ∧ cfg.readDisturb = false)
    (hr : Runs E cfg h x) (hx : xMvm E cfg x res vec mat m n l = .ok (x', r)) {ops : List Op}
    (hops : ∀ op ∈ ops, isMvm op) {rs : List (Vec Int)} (he : exec E cfg x ops = .ok (y, rs)) :
    y.mapper.core = x.mapper.core ∧
    (∀ y' r', xMvm E cfg y res vec mat' m n l = .ok (y', r') →
      r' = r ∧ y'.mapper.core = x.mapper.core) ∧
    (cfg.digitalOnly = true ∨ cfg.adcProfile = false →
      ∃ y', xMvm E cfg y res vec mat' m n l = .ok (y', r)) := by
  obtain ⟨hs, hc⟩ := exec_mvms hq hops (runs_shape hr) he
  refine ⟨hc, fun y' r' hy => ?_, fun hp => ?_⟩
  · have k := rel_xMvm (w := true) (res := res) (vec := vec) (mat := mat) (mat' := mat') (m := m) (n := n)
      (l := l) hq (runs_shape hr) hs hc.symm fun _ _ => rfl
    rw [hx, hy] at k
    exact ⟨Eq.symm k, (xMvm_core hy hq).1.trans hc⟩
  · have k := rel_xMvm (w := false) (res := res) (vec := vec) (mat := mat) (mat' := mat') (m := m)
      (n := n) (l := l) hq (runs_shape hr) hs hc.symm (by
        intro h1 h2
        rcases hp with hp | hp
        · rw [hp] at h1; cases h1
        · rw [hp] at h2; cases h2)
    rw [hx] at k
    cases hy : xMvm E cfg y res vec mat' m n l with
    | error e => rw [hy] at k; cases k
    | ok q =>
      rw [hy] at k
      have k : r = q.2 := k
      exact ⟨q.1, by rw [k]⟩

/-- C37, for a second crossbar: two crossbars with the same cells answer alike. -/
theorem C37_result_determined (hq : cfg.digitalOnly = true ∨ cfg.c2c = false ∧ cfg.readDisturb = false)
    {h' : List Op} (hr : Runs E cfg h x) (hr' : Runs E cfg h' y)
    (hc : x.mapper.core = y.mapper.core) {y' : Xbar K} {r' : Vec Int}
    (hx : xMvm E cfg x res vec mat m n l = .ok (x', r))
    (hy : xMvm E cfg y res vec mat' m n l = .ok (y', r')) : r' = r := by
  have k := rel_xMvm (w := true) (res := res) (vec := vec) (mat := mat) (mat' := mat') (m := m) (n := n)
    (l := l) hq (runs_shape hr) (runs_shape hr') hc fun _ _ => rfl
  rw [hx, hy] at k
  exact Eq.symm k

/-- A noisy analog crossbar, another multiplication in between: the result is not the
product, but it is the same again. -/
example : ∃ x x' y r rs, Runs Ex.env { Ex.acfg .bnn1 with hrsNoise := 1, lrsNoise := 1 }
      [.write Ex.mat 2 3] x ∧
    xMvm Ex.env { Ex.acfg .bnn1 with hrsNoise := 1, lrsNoise := 1 } x Ex.res Ex.vec Ex.mat 2 3 ""
      = .ok (x', r) ∧
    exec Ex.env { Ex.acfg .bnn1 with hrsNoise := 1, lrsNoise := 1 } x
      [.mvm Ex.res (Vec.ofList [-1, 1, 1]) Ex.mat 2 3 ""] = .ok (y, rs) ∧
    (r.get 0 != 9 && y.mapper.core.ia.p.get 0 1 != 5) = true := by
  obtain ⟨x, hr, h⟩ := Ex.wrote (E := Ex.env)
    (c := { Ex.acfg .bnn1 with hrsNoise := 1, lrsNoise := 1 }) (mat := Ex.mat) (m := 2) (n := 3)
    (fun x => Ex.okAnd (xMvm Ex.env { Ex.acfg .bnn1 with hrsNoise := 1, lrsNoise := 1 } x Ex.res
      Ex.vec Ex.mat 2 3 "") fun q =>
        Ex.okAnd (exec Ex.env { Ex.acfg .bnn1 with hrsNoise := 1, lrsNoise := 1 } x
          [.mvm Ex.res (Vec.ofList [-1, 1, 1]) Ex.mat 2 3 ""]) fun s =>
            q.2.get 0 != 9 && s.1.mapper.core.ia.p.get 0 1 != 5) (by decide +kernel)
  obtain ⟨q, h1, h⟩ := Ex.okAnd_spec h
  obtain ⟨s, h2, h⟩ := Ex.okAnd_spec h
  exact ⟨x, q.1, s.1, q.2, s.2, hr, h1, h2, h⟩

end

end Acs.Props
