import Verif.Lemmas.UpdInv

/-! # Invariants of sessions -/

set_option linter.unusedSectionVars false

namespace Acs

open Spec

section
variable {K : Type} [Field K] [LinearOrder K] [IsStrictOrderedRing K] [FloorRing K]
variable {E : Env K} {j j' v : Json K} {k k' : String} {s s' : Upd K} {w w' : World K}
variable {c d : Cfg K} {x x' : Xbar K} {m n : Nat} {mat vec res r : Vec Int} {l : String}

/-! ## The loop of `update_cfg` without assumptions on the keys -/

theorem updKeys_agree {l : List (String × Json K)} (h : updKeys E l s = .ok s') :
    (s'.recreate = false → s.recreate = false ∧ SameKeys s.data s'.data) ∧
    (s'.modified = false → s.modified = false ∧ s' = s) ∧
    (s'.recreate = true → s.recreate = true ∨ s'.modified = true) := by
  induction l generalizing s with
  | nil =>
    rw [updKeys, ok_inj] at h
    subst h
    exact ⟨fun e => ⟨e, SameKeys.refl _⟩, fun e => ⟨e, rfl⟩, fun e => Or.inl e⟩
  | cons p l ih =>
    obtain ⟨k, v⟩ := p
    rw [updKeys, bind_eq_ok] at h
    obtain ⟨t, h1, h⟩ := h
    obtain ⟨i1, i2, i3⟩ := ih h
    rcases updKey_inv h1 with ⟨_, rfl⟩ | ⟨_, hm, hr, hs⟩
    · exact ⟨i1, i2, i3⟩
    · refine ⟨fun e => ?_, fun e => ?_, fun e => ?_⟩
      · obtain ⟨e1, e2⟩ := i1 e
        rw [hr, Bool.or_eq_false_iff] at e1
        refine ⟨e1.1, fun k' hk' => ?_⟩
        rw [e2 k' hk', set_find hs, if_neg]
        rintro rfl
        have : recreationKeys.contains k' = true := structural_iff.1 hk'
        rw [this] at e1
        exact absurd e1.2 (by decide)
      · rw [hm] at i2
        exact absurd (i2 e).1 (by decide)
      · rcases i3 e with e' | e'
        · exact Or.inr (by
            by_contra hn
            rw [Bool.not_eq_true] at hn
            have := (i2 hn).1
            rw [hm] at this
            cases this)
        · exact Or.inr e'

theorem updateCfg_agree {q : World K × Bool × Bool} (h : updateCfg E j w = .ok q) :
    q.1.xbar = w.xbar ∧ q.1.rng = w.rng ∧ q.1.hists = w.hists ∧
    (q.2.1 = true → applyConfig E q.1.data w.cfg = .ok q.1.cfg) ∧
    (q.2.1 = false → q.1 = w) ∧
    (q.2.2 = false → SameKeys w.data q.1.data) ∧
    (q.2.2 = true → q.2.1 = true) := by
  unfold updateCfg at h
  rw [rbind_ok] at h
  obtain ⟨s, h1, h⟩ := h
  rw [lift_ok] at h1
  obtain ⟨i1, i2, i3⟩ := updKeys_agree h1
  split at h
  · next hm =>
    rw [rbind_ok] at h
    obtain ⟨c, h2, h⟩ := h
    rw [lift_ok] at h2
    rw [rok_inj] at h
    subst h
    exact ⟨rfl, rfl, rfl, fun _ => h2, fun e => (nomatch e), fun e => (i1 e).2, fun _ => rfl⟩
  · next hm =>
    rw [rok_inj] at h
    subst h
    rw [Bool.not_eq_true] at hm
    obtain ⟨_, rfl⟩ := i2 hm
    exact ⟨rfl, rfl, rfl, fun e => (nomatch e), fun _ => rfl, fun e => (i1 e).2, fun e => by
      rcases i3 e with e | e
      · cases e
      · rw [hm] at e; cases e⟩

/-! ## Interface calls that return -/

theorem release_ok (h : release w = .ok ()) (hx : w.xbar = some x) : destroyXbar w.cfg = .ok () := by
  unfold release at h
  rw [hx] at h
  exact lift_ok.1 h

/-- `set_config` when it returns. -/
theorem setConfig_inv {f : File K} (h : setConfig E f w = .ok w') :
    release w = .ok () ∧ ∃ x, w'.xbar = some x ∧ mkXbar E w'.cfg w.drop.rng w.drop.hists = .ok x ∧
    ((f = .unnamed ∧ w'.cfg = w.cfg ∧ w'.data = w.data) ∨
      ∃ j, f = .good j ∧ w'.data = j ∧ applyConfig E j w.cfg = .ok w'.cfg) := by
  have hcfg : w.drop.cfg = w.cfg := by unfold World.drop; split <;> rfl
  have hdata : w.drop.data = w.data := by unfold World.drop; split <;> rfl
  have hxb : w.drop.xbar = none := by
    unfold World.drop
    split
    · assumption
    · rfl
  have hd2 : ∀ (c : Cfg K) (j : Json K), ({ w.drop with cfg := c, data := j } : World K).drop =
      { w.drop with cfg := c, data := j } := fun c j => by
    unfold World.drop at hxb ⊢
    dsimp only
    split
    · rfl
    · next e => rw [hxb] at e; cases e
  unfold setConfig at h
  rw [rbind_ok] at h
  obtain ⟨_, h0, h⟩ := h
  rw [rbind_ok] at h
  obtain ⟨q, h1, h⟩ := h
  rw [rbind_ok] at h
  obtain ⟨x, h2, h⟩ := h
  rw [rok_inj] at h
  subst h
  refine ⟨h0, x, rfl, ?_⟩
  unfold newXbar at h2
  rw [lift_ok] at h2
  unfold loadCfg at h1
  split at h1
  · rw [rok_inj] at h1
    subst h1
    have e := hd2 w.drop.cfg w.drop.data
    refine ⟨?_, Or.inl ⟨rfl, hcfg, hdata⟩⟩
    change mkXbar E w.drop.cfg w.drop.drop.rng w.drop.drop.hists = .ok x at h2
    have e' : w.drop.drop = w.drop := e
    rw [e'] at h2
    exact h2
  · cases h1
  · cases h1
  · next j =>
    rw [rbind_ok] at h1
    obtain ⟨c, h3, h1⟩ := h1
    rw [lift_ok] at h3
    rw [rok_inj] at h1
    subst h1
    dsimp only at h2 ⊢
    rw [hd2] at h2
    exact ⟨h2, Or.inr ⟨j, rfl, rfl, by rw [hcfg] at h3; exact h3⟩⟩

/-- `update_config` when it returns. -/
theorem updateConfig_inv {dc : Doc K} {z : Int} (h : updateConfig E dc w = .ok (w', z)) :
    (w' = w ∧ z = -1 ∧ (w.xbar = none ∨ dc = .null)) ∨
    ∃ x j q, w.xbar = some x ∧ dc = .good j ∧ z = 0 ∧ updateCfg E j w = .ok q ∧
      ((q.2.1 = true ∧ q.2.2 = true ∧ ∃ x', mkXbar E q.1.cfg w.drop.rng w.drop.hists = .ok x' ∧
          destroyXbar q.1.cfg = .ok () ∧ w'.xbar = some x' ∧ w'.cfg = q.1.cfg ∧ w'.data = q.1.data) ∨
       ((q.2.1 && q.2.2) = false ∧ w' = q.1)) := by
  unfold updateConfig at h
  split at h
  · next hx =>
    rw [rok_inj, Prod.mk.injEq] at h
    exact Or.inl ⟨h.1.symm, h.2.symm, Or.inl hx⟩
  · next x hx =>
    split at h
    · rw [rok_inj, Prod.mk.injEq] at h
      exact Or.inl ⟨h.1.symm, h.2.symm, Or.inr rfl⟩
    · cases h
    · next j =>
      rw [rbind_ok] at h
      obtain ⟨q, h1, h⟩ := h
      have ha := updateCfg_agree h1
      split at h
      · next hq =>
        rw [Bool.and_eq_true] at hq
        rw [rbind_ok] at h
        obtain ⟨x', h2, h⟩ := h
        rw [rbind_ok] at h
        obtain ⟨_, h3, h⟩ := h
        rw [rok_inj, Prod.mk.injEq] at h
        obtain ⟨rfl, rfl⟩ := h
        refine Or.inr ⟨x, j, q, hx, rfl, rfl, h1, Or.inl ⟨hq.1, hq.2, x', ?_, ?_, rfl, ?_, ?_⟩⟩
        · unfold newXbar at h2
          rw [lift_ok] at h2
          have e1 : q.1.drop.rng = w.drop.rng := by
            unfold World.drop
            rw [ha.1, hx]
          have e2 : q.1.drop.hists = w.drop.hists := by
            unfold World.drop
            rw [ha.1, hx]
          rw [e1, e2] at h2
          exact h2
        · exact release_ok h3 (ha.1.trans hx)
        · unfold World.drop; split <;> rfl
        · unfold World.drop; split <;> rfl
      · next hq =>
        rw [rok_inj, Prod.mk.injEq] at h
        exact Or.inr ⟨x, j, q, hx, rfl, h.2.symm, h1, Or.inr ⟨by simpa using hq, h.1.symm⟩⟩

theorem toSize_cast (h : m < 2147483648) : toSize (m : Int) = m := by
  unfold toSize
  have : (m : Int) % 18446744073709551616 = m := Int.emod_eq_of_lt (by omega) (by omega)
  rw [this]
  rfl

theorem toU32_cast (h : m < 2147483648) : toU32 (m : Int) = m := by
  unfold toU32
  have : (m : Int) % 4294967296 = m := Int.emod_eq_of_lt (by omega) (by omega)
  rw [this]
  rfl

/-- `cpy_mtrx` when it returns. -/
theorem cpyMtrx_inv {a b : Int} {z : Int} (h : cpyMtrx E mat a b w = .ok (w', z)) :
    (w' = w ∧ z = -1 ∧ (w.xbar = none ∨ tooBig w a b)) ∨
    ∃ x x', w.xbar = some x ∧ ¬tooBig w a b ∧ z = 0 ∧
      xWrite E w.cfg x mat (toSize a) (toSize b) = .ok x' ∧ w' = { w with xbar := some x' } := by
  unfold cpyMtrx at h
  split at h
  · next hx =>
    rw [rok_inj, Prod.mk.injEq] at h
    exact Or.inl ⟨h.1.symm, h.2.symm, Or.inl hx⟩
  · next x hx =>
    split at h
    · next hb =>
      rw [rok_inj, Prod.mk.injEq] at h
      exact Or.inl ⟨h.1.symm, h.2.symm, Or.inr hb⟩
    · next hb =>
      rw [rbind_ok] at h
      obtain ⟨x', h1, h⟩ := h
      rw [lift_ok] at h1
      rw [rok_inj, Prod.mk.injEq] at h
      exact Or.inr ⟨x, x', hx, hb, h.2.symm, h1, h.1.symm⟩

/-- `exe_mvm` when it returns. -/
theorem exeMvm_inv {a b : Int} {z : Int} (h : exeMvm E res vec mat a b l w = .ok (w', r, z)) :
    (w' = w ∧ r = res ∧ z = -1 ∧ (w.xbar = none ∨ tooBig w a b)) ∨
    ∃ x x', w.xbar = some x ∧ ¬tooBig w a b ∧ z = 0 ∧
      xMvm E w.cfg x res vec mat (toSize a) (toSize b) l = .ok (x', r) ∧
      w' = { w with xbar := some x' } := by
  unfold exeMvm at h
  split at h
  · next hx =>
    simp only [rok_inj, Prod.mk.injEq] at h
    exact Or.inl ⟨h.1.symm, h.2.1.symm, h.2.2.symm, Or.inl hx⟩
  · next x hx =>
    split at h
    · next hb =>
      simp only [rok_inj, Prod.mk.injEq] at h
      exact Or.inl ⟨h.1.symm, h.2.1.symm, h.2.2.symm, Or.inr hb⟩
    · next hb =>
      rw [rbind_ok] at h
      obtain ⟨x', h1, h⟩ := h
      rw [lift_ok] at h1
      simp only [rok_inj, Prod.mk.injEq] at h
      obtain ⟨rfl, rfl, rfl⟩ := h
      exact Or.inr ⟨x, x'.1, hx, hb, rfl, h1, rfl⟩

/-- `exe_mvm_pb` when it returns. -/
theorem exeMvmPb_inv {a b : Int} {z : Int} (h : exeMvmPb E res vec mat a b w = .ok (w', r, z)) :
    ∃ x x', w.xbar = some x ∧ z = 0 ∧
      xMvm E w.cfg x res vec mat (toSize a) (toSize b) "Unknown" = .ok (x', r) ∧
      w' = { w with xbar := some x' } := by
  unfold exeMvmPb at h
  split at h
  · cases h
  · next x hx =>
    rw [rbind_ok] at h
    obtain ⟨x', h1, h⟩ := h
    rw [lift_ok] at h1
    simp only [rok_inj, Prod.mk.injEq] at h
    obtain ⟨rfl, rfl, rfl⟩ := h
    exact ⟨x, x'.1, hx, rfl, h1, rfl⟩

theorem boot_inv {f : File K} (h : boot E f = .ok w) :
    (f = .unnamed ∧ w = world0) ∨
    ∃ j x, f = .good j ∧ w.data = j ∧ applyConfig E j cfg0 = .ok w.cfg ∧ w.xbar = some x ∧
      mkXbar E w.cfg 0 [] = .ok x := by
  unfold boot at h
  dsimp only at h
  split at h
  · next w1 e =>
    rw [ok_inj] at h
    subst h
    rw [rbind_ok] at e
    obtain ⟨q, h1, e⟩ := e
    unfold loadCfg at h1
    split at h1
    · rw [rok_inj] at h1
      subst h1
      simp only [Bool.false_eq_true, if_false, rok_inj] at e
      exact Or.inl ⟨rfl, e.symm⟩
    · cases h1
    · cases h1
    · next j =>
      rw [rbind_ok] at h1
      obtain ⟨c, h3, h1⟩ := h1
      rw [lift_ok] at h3
      rw [rok_inj] at h1
      subst h1
      simp only [if_true, rbind_ok, rok_inj] at e
      obtain ⟨x, h4, e⟩ := e
      subst e
      unfold newXbar at h4
      rw [lift_ok] at h4
      exact Or.inr ⟨j, x, rfl, rfl, h3, rfl, h4⟩
  · cases h
  · cases h

/-! ## The crossbar fits the configuration -/

/-- The part of `Shape` that survives every update that keeps the crossbar. -/
structure XShape (E : Env K) (cfg : Cfg K) (x : Xbar K) : Prop where
  core : CoreShape E cfg x.mapper.core
  rd : cfg.readDisturb = true → ∃ rd, x.rd = some rd ∧ RdShape cfg rd

theorem Shape.toX (h : Shape E c x) : XShape E c x := ⟨h.core, h.rd⟩

theorem XShape.matches (h : XShape E c x) : Matches c x := by
  obtain ⟨h1, h2⟩ := h
  refine ⟨h1.mode, h1.gd.p, h1.gd.m, h1.gd.sumW, h1.ia.p, h1.ia.m, h1.par, fun hr => ?_⟩
  obtain ⟨rd, hx, hs⟩ := h2 hr
  exact ⟨rd, hx, hs.cycP.1, hs.cycP.2, hs.cycM.1, hs.cycM.2⟩

private theorem no {P : Prop} : ¬(fun _ : Fault => True) .oob → P := fun h => absurd trivial h

private theorem noF {cfg : Cfg K} : Fits (fun _ => True) cfg m n := Fits.mk' fun h => absurd trivial h

private theorem anyPar {cfg : Cfg K} {p : Option (Solver K)} {n : Nat} : ParOk (fun _ => True) cfg p n :=
  ⟨fun h => absurd trivial h, fun h => absurd trivial h⟩

theorem xWriteD_x {q : Mapper K × Option (Rd K)} (h : XShape E c x)
    (hx : xWriteD E c x mat m n = .ok q) : CoreShape E c q.1.core ∧
      (c.readDisturb = true → ∃ rd, q.2 = some rd ∧ RdShape c rd) := by
  have : Sat (fun _ => True) (xWriteD E c x mat m n) fun r => CoreShape E c r.1.core ∧
      (c.readDisturb = true → ∃ rd, r.2 = some rd ∧ RdShape c rd) := by
    unfold xWriteD
    refine Sat.ite (fun hr => ?_) fun hr => ?_
    · refine Sat.bind (sat_dWrite lax_true h.core noF no) fun mp hmp => ?_
      refine Sat.bind (sat_resetMat h.core.gd.p hmp.1.gd.p) fun up hup => ?_
      refine Sat.bind (sat_resetMat h.core.gd.m hmp.1.gd.m) fun um hum => ?_
      obtain ⟨rd, hrd, hrs⟩ := h.rd hr
      rw [hrd]
      refine Sat.bind (sat_updateCycles hrs hup hum) fun rd hrd => ?_
      refine Sat.bind (P := RdShape c) (Sat.ite (fun _ => sat_resetReads hrd) fun _ => hrd)
        fun rd hrd => ?_
      exact ⟨hmp.1, fun _ => ⟨_, rfl, hrd⟩⟩
    · refine Sat.bind (sat_dWrite lax_true h.core noF no) fun mp hmp => ?_
      exact ⟨hmp.1, fun hr' => absurd hr' hr⟩
  exact this.of_ok hx

theorem xWrite_x (h : XShape E c x) (hx : xWrite E c x mat m n = .ok x') : XShape E c x' := by
  unfold xWrite at hx
  rw [bind_eq_ok] at hx
  obtain ⟨q, h1, hx⟩ := hx
  rw [bind_eq_ok] at hx
  obtain ⟨mp, h2, hx⟩ := hx
  rw [ok_inj] at hx
  subst hx
  obtain ⟨h3, h4⟩ := xWriteD_x h h1
  refine ⟨?_, h4⟩
  show CoreShape E c mp.core
  split at h2
  · rw [ok_inj] at h2; rw [← h2]; exact h3
  · exact ((sat_aWrite lax_true h3 noF anyPar).of_ok h2).1

theorem rdStep_x (h : XShape E c x) (hr : c.readDisturb = true)
    (hx : rdStep E c x m n = .ok x') : XShape E c x' := by
  obtain ⟨rd, hrd, hrs⟩ := h.rd hr
  have : Sat (fun _ => True) (rdStep E c x m n) (XShape E c) := by
    unfold rdStep
    rw [hrd]
    split
    · refine Sat.ite (fun _ => Sat.err trivial) fun _ => Sat.ite (fun _ => ?_) fun _ => h
      refine Sat.bind (sat_rdUpdate lax_true h.core hrs (fun _ _ _ _ => trivial) fun _ _ _ _ => trivial)
        fun r hr' => ?_
      exact ⟨hr'.1, fun _ => ⟨_, rfl, hr'.2.1⟩⟩
    · refine Sat.ite (fun _ => Sat.err trivial) fun _ => Sat.ite (fun _ => ?_) fun _ => h
      refine Sat.bind (sat_rdUpdate lax_true h.core hrs (fun _ _ _ _ => trivial) fun _ _ _ _ => trivial)
        fun r hr' => ?_
      dsimp only
      have hrs' : RdShape c { r.2 with oob := r.2.oob || rdOob E (x.writes + x.refX) } :=
        ⟨hr'.2.1.cycP, hr'.2.1.cycM, hr'.2.1.rdP, hr'.2.1.rdM⟩
      refine Sat.ite (fun _ => ?_) fun _ => ⟨hr'.1, fun _ => ⟨_, rfl, hrs'⟩⟩
      unfold softwareRefresh
      dsimp only
      refine Sat.bind (sat_lrsMat hr'.1.gd.p _) fun p hp' => ?_
      refine Sat.bind (P := fun r : Mat Bool × Nat => r.1.Is c.R c.N)
        (Sat.ite (fun _ => sat_lrsMat hr'.1.gd.m _) fun _ => Sat.ok (Mat.const_is _ _ _)) fun q hq => ?_
      refine Sat.bind (sat_updateCycles hrs' hp' hq) fun rd hrd => ?_
      refine Sat.bind (sat_aWrite lax_true (mp := { x.mapper with core := r.1 }) hr'.1 noF anyPar)
        fun mp hmp => ?_
      exact ⟨hmp.1, fun _ => ⟨rd, rfl, hrd⟩⟩
    · refine Sat.bind (sat_updateReads hrs noF) fun rd' hrs' => ?_
      refine Sat.ite (fun _ => Sat.err trivial) fun _ => Sat.ite (fun _ => ?_) fun _ => ?_
      · refine Sat.bind (sat_rdUpdate lax_true h.core hrs'
          (fun i j hi hj => (Sat.mrdIs hrs'.rdP fun _ => ⟨hi, hj⟩).true)
          fun i j hi hj => (Sat.mrdIs hrs'.rdM fun _ => ⟨hi, hj⟩).true) fun r hr' => ?_
        refine Sat.bind (sat_rdCellRefresh lax_true (mp := { x.mapper with core := r.1 }) hr'.1 hr'.2.1)
          fun s hs => ?_
        exact ⟨hs.1, fun _ => ⟨_, rfl, hs.2.1⟩⟩
      · exact ⟨h.core, fun _ => ⟨_, rfl, hrs'⟩⟩
  exact this.of_ok hx

theorem xMvm_x (h : XShape E c x) (hx : xMvm E c x res vec mat m n l = .ok (x', r)) :
    XShape E c x' := by
  unfold xMvm at hx
  dsimp only at hx
  split at hx
  · rw [bind_eq_ok] at hx
    obtain ⟨q, h1, hx⟩ := hx
    rw [ok_inj, Prod.mk.injEq] at hx
    rw [← hx.1]
    exact ⟨h.core, h.rd⟩
  · rw [bind_eq_ok] at hx
    obtain ⟨mp, h1, hx⟩ := hx
    rw [bind_eq_ok] at hx
    obtain ⟨q, h2, hx⟩ := hx
    rw [bind_eq_ok] at hx
    obtain ⟨mp2, h3, hx⟩ := hx
    rw [bind_eq_ok] at hx
    obtain ⟨x2, h4, hx⟩ := hx
    rw [ok_inj, Prod.mk.injEq] at hx
    obtain ⟨rfl, _⟩ := hx
    have e1 : CoreShape E c mp.core := by
      split at h1
      · exact ((sat_addC2C lax_true h.core noF).of_ok h1).1
      · rw [ok_inj] at h1; rw [← h1]; exact h.core
    have e2 : CoreShape E c mp2.core := by
      split at h3
      · exact ((sat_removeC2C (mp := { mp with aux := q.1 }) e1 noF).of_ok h3).1
      · rw [ok_inj] at h3; rw [← h3]; exact e1
    split at h4
    · next hr =>
      refine rdStep_x ?_ hr h4
      exact ⟨e2, h.rd⟩
    · rw [ok_inj] at h4
      subst h4
      exact ⟨e2, h.rd⟩

/-! ## Updates that keep the crossbar -/

theorem SameStruct.core (h : SameStruct c d) {q : Core K} (hc : CoreShape E c q) :
    CoreShape E d q := by
  obtain ⟨⟨c0, h1, h2⟩, h3, h4, h5⟩ := hc
  unfold SameStruct at h
  rw [h]
  refine ⟨⟨_, mkCore_other (cfg := c.noPar) d.iBit d.verbose d.d2d d.c2c false d.wRes d.binSize h1
    (p := none) (by unfold optSolver; simp), ⟨h2.1, h2.2, h2.3, h2.4, h2.5, h2.6, h2.7, h2.8⟩⟩,
    ⟨h3.p, h3.m, h3.sumW⟩, ⟨h4.p, h4.m, h4.pO, h4.mO⟩, h5⟩

theorem SameStruct.rdShape (h : SameStruct c d) {q : Rd K} (hc : RdShape c q) : RdShape d q := by
  unfold SameStruct at h
  rw [h]
  exact ⟨hc.cycP, hc.cycM, hc.rdP, hc.rdM⟩

theorem SameStruct.rdEq (h : SameStruct c d) : d.readDisturb = c.readDisturb := by
  unfold SameStruct at h
  rw [h]

theorem SameStruct.xshape (h : SameStruct c d) (hx : XShape E c x) : XShape E d x := by
  refine ⟨h.core hx.core, fun hr => ?_⟩
  rw [h.rdEq] at hr
  obtain ⟨rd, h1, h2⟩ := hx.rd hr
  exact ⟨rd, h1, h.rdShape h2⟩

theorem SameStruct.aux (h : SameStruct c d) (hp : d.parasitics = c.parasitics) {a : Aux K}
    (ha : AuxShape c a) : AuxShape d a := by
  obtain ⟨h1, h2, h3, h4, h5, h6, h7, h8, h9, h10, h11⟩ := ha
  rw [← hp] at h5
  unfold SameStruct at h
  rw [h]
  exact ⟨h1, h2, h3, h4, h5, h6, h7, h8, h9, h10, h11⟩

theorem SameStruct.digEq (h : SameStruct c d) : d.digitalOnly = c.digitalOnly := by
  unfold SameStruct at h
  rw [h]

theorem SameStruct.shape (h : SameStruct c d) (hp : d.parasitics = c.parasitics)
    (hx : Shape E c x) : Shape E d x := by
  have := h.xshape hx.toX
  exact ⟨this.core, h.aux hp hx.aux, this.rd, fun a b => hx.parEx (h.digEq ▸ a) (hp ▸ b)⟩

theorem SameStruct.refl (c : Cfg K) : SameStruct c c := rfl

theorem SameStruct.trans {e : Cfg K} (h : SameStruct c d) (h' : SameStruct d e) : SameStruct c e := by
  unfold SameStruct at *
  rw [h'] 
  rw [h]

theorem SameStruct.symm (h : SameStruct c d) : SameStruct d c := by
  unfold SameStruct at *
  rw [h]

/-! ## Reachable states -/

/-- Where the configuration of a state comes from. -/
def Loaded (E : Env K) (w : World K) : Prop :=
  (w.cfg = cfg0 ∧ w.data = .null) ∨ ∃ c, applyConfig E w.data c = .ok w.cfg

structure Inv (E : Env K) (w : World K) : Prop where
  loaded : Loaded E w
  xbar : ∀ x, w.xbar = some x → XShape E w.cfg x

theorem apply_find {c' : Cfg K} (h : applyConfig E j c = .ok c') : j.find "M" ≠ none := by
  obtain ⟨s⟩ := applyConfig_inv h
  obtain ⟨m, n, h1, _⟩ := applyDims_inv s.dims
  intro hn
  unfold getReq at h1
  rw [hn] at h1
  cases h1

/-- An update that keeps the crossbar changes no structural parameter. -/
theorem keep_struct {q : World K × Bool × Bool} (hl : Loaded E w) (h : updateCfg E j w = .ok q)
    (hk : (q.2.1 && q.2.2) = false) : SameStruct w.cfg q.1.cfg ∧ Loaded E q.1 := by
  obtain ⟨_, _, _, a4, a5, a6, a7⟩ := updateCfg_agree h
  cases hm : q.2.1
  · rw [a5 hm]
    exact ⟨SameStruct.refl _, hl⟩
  · have hr : q.2.2 = false := by rw [hm] at hk; simpa using hk
    have ag := a6 hr
    have ha := a4 hm
    refine ⟨?_, Or.inr ⟨_, ha⟩⟩
    rcases hl with ⟨_, h2⟩ | ⟨c, h2⟩
    · exact absurd ((ag "M" (structural_of (by decide))).trans (by rw [h2]; rfl)) (apply_find ha)
    · exact (apply_again ag h2 ha).1

theorem inv_update {dc : Doc K} {z : Int} (h : Inv E w) (h' : updateConfig E dc w = .ok (w', z)) :
    Inv E w' := by
  rcases updateConfig_inv h' with ⟨rfl, _, _⟩ | ⟨x, j, q, hx, _, _, hq, h2⟩
  · exact h
  · obtain ⟨a1, _, _, a4, _, _, _⟩ := updateCfg_agree hq
    rcases h2 with ⟨h3, _, x', h4, _, h5, h6, h7⟩ | ⟨h3, rfl⟩
    · refine ⟨Or.inr ⟨w.cfg, by rw [h6, h7]; exact a4 h3⟩, fun y hy => ?_⟩
      rw [h5] at hy
      cases hy
      rw [h6]
      exact (mkXbar_shape h4).toX
    · obtain ⟨h4, h5⟩ := keep_struct h.loaded hq h3
      refine ⟨h5, fun y hy => ?_⟩
      rw [a1] at hy
      exact h4.xshape (h.xbar y hy)

theorem inv_reach (h : Reach E false w) : Inv E w := by
  induction h with
  | boot h =>
    rcases boot_inv h with ⟨_, rfl⟩ | ⟨j, x, _, h2, h3, h4, h5⟩
    · exact ⟨Or.inl ⟨rfl, rfl⟩, fun x hx => (nomatch hx)⟩
    · refine ⟨Or.inr ⟨cfg0, by rw [h2]; exact h3⟩, fun y hy => ?_⟩
      rw [h4] at hy
      cases hy
      exact (mkXbar_shape h5).toX
  | caught _ he => cases he
  | @step w w' c _ h' ih =>
    cases c with
    | setConfig f =>
      obtain ⟨_, x, h2, h3, h4⟩ := setConfig_inv h'
      refine ⟨?_, fun y hy => ?_⟩
      · rcases h4 with ⟨_, h5, h6⟩ | ⟨j, _, h5, h6⟩
        · have := ih.loaded
          unfold Loaded at this ⊢
          rw [h5, h6]
          exact this
        · exact Or.inr ⟨w.cfg, by rw [h5]; exact h6⟩
      · rw [h2] at hy
        cases hy
        exact (mkXbar_shape h3).toX
    | update dc =>
      simp only [after] at h'
      cases hu : updateConfig E dc w with
      | error e => rw [hu] at h'; cases h'
      | ok q =>
        rw [hu] at h'
        cases h'
        exact inv_update ih hu
    | updatePb dc =>
      simp only [after, updateConfigPb] at h'
      cases dc with
      | none => cases h'; exact ih
      | some dc =>
        rw [rbind_ok] at h'
        obtain ⟨q, hu, h'⟩ := h'
        cases h'
        exact inv_update ih hu
    | write mat m n =>
      simp only [after] at h'
      cases hu : cpyMtrx E mat m n w with
      | error e => rw [hu] at h'; cases h'
      | ok q =>
        rw [hu] at h'
        cases h'
        rcases cpyMtrx_inv (w' := q.1) (z := q.2) hu with ⟨h1, _⟩ | ⟨x, x', h1, _, _, h2, h3⟩
        · rw [h1]; exact ih
        · rw [h3]
          exact ⟨ih.loaded, fun y hy => by cases hy; exact xWrite_x (ih.xbar x h1) h2⟩
    | mvm res vec mat m n l =>
      simp only [after] at h'
      cases hu : exeMvm E res vec mat m n l w with
      | error e => rw [hu] at h'; cases h'
      | ok q =>
        rw [hu] at h'
        cases h'
        rcases exeMvm_inv (w' := q.1) (r := q.2.1) (z := q.2.2) hu with ⟨h1, _⟩ | ⟨x, x', h1, _, _, h2, h3⟩
        · rw [h1]; exact ih
        · rw [h3]
          exact ⟨ih.loaded, fun y hy => by cases hy; exact xMvm_x (ih.xbar x h1) h2⟩
    | mvmPb res vec mat m n =>
      simp only [after] at h'
      cases hu : exeMvmPb E res vec mat m n w with
      | error e => rw [hu] at h'; cases h'
      | ok q =>
        rw [hu] at h'
        cases h'
        obtain ⟨x, x', h1, _, h2, h3⟩ := exeMvmPb_inv (w' := q.1) (r := q.2.1) (z := q.2.2) hu
        rw [h3]
        exact ⟨ih.loaded, fun y hy => by cases hy; exact xMvm_x (ih.xbar x h1) h2⟩

end

end Acs
