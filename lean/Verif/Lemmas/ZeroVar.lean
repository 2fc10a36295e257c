import Verif.SpecVar
import Verif.Lemmas.AWrite
import Verif.Lemmas.RdHist
import Verif.Lemmas.C2cBlind
import Verif.Lemmas.NearXbar

/-! # Cycle-to-cycle variation -/

set_option linter.unusedSectionVars false

namespace Acs

open Spec

section
variable {K : Type} [Field K] [LinearOrder K] [IsStrictOrderedRing K] [FloorRing K]
variable {E : Env K} {cfg : Cfg K} {x x' : Xbar K} {h : List Op} {res vec mat : Vec Int} {m n : Nat} {l : String}

/-! ## The switch is read by multiplications only -/

theorem still_xWrite : xWrite E (still cfg) x mat m n = xWrite E cfg x mat m n := rfl

theorem still_mkXbar {rng : Nat} {hs : List (String × Hist K)} : mkXbar E (still cfg) rng hs = mkXbar E cfg rng hs := rfl

theorem still_aMvm {c : Core K} {a : Aux K} : aMvm E (still cfg) c a res vec m n l = aMvm E cfg c a res vec m n l := rfl

theorem still_dMvm {c : Core K} {a : Aux K} : dMvm E (still cfg) c a res vec m n = dMvm E cfg c a res vec m n := rfl

/-! ## Variation of size zero -/

theorem loop_still {σ : Type} {n : Nat} {f : Nat → σ → C σ} {s : σ} (h : ∀ i, i < n → f i s = .ok s) :
    loop n f s = .ok s := by
  induction n with
  | zero => rfl
  | succ n ih =>
    unfold loop
    rw [ih fun i hi => h i (by omega), ok_bind, h n (by omega)]

theorem wr_same {α : Type} {A : Mat α} {i j : Nat} (hi : i < A.rows) (hj : j < A.cols) :
    A.wr i j (A.get i j) = .ok A := by
  unfold Mat.wr
  rw [if_pos ⟨hi, hj⟩]
  refine congrArg Except.ok ?_
  obtain ⟨a, b, f⟩ := A
  refine congrArg (Mat.mk a b) (funext fun r => funext fun k => ?_)
  split
  · next e => rw [e.1, e.2]
  · rfl

theorem bits01 (hok : CfgOk cfg) (hi : cfg.mode.isInt = false) (hdo : cfg.digitalOnly = false)
    (hrd : cfg.readDisturb = false) (hr : Runs E cfg h x) (r k : Nat) :
    (x.mapper.core.gd.p.get r k = 0 ∨ x.mapper.core.gd.p.get r k = 1) ∧
      (x.mapper.core.gd.m.get r k = 0 ∨ x.mapper.core.gd.m.get r k = 1) := by
  have B := runs_binCur hok hi hdo hrd hr
  have C := runs_cells hok hr
  rw [C.p, C.m]
  have hp := B.p r k
  have hm := B.m
  unfold cellOf
  cases hL : lastWrite h (rowOf cfg r).1 k with
  | none => exact ⟨.inl rfl, .inl rfl⟩
  | some w =>
    rw [hL] at hp
    refine ⟨?_, ?_⟩
    · rcases hp with ⟨e, _⟩ | ⟨e, _⟩
      · exact .inl e
      · exact .inr e
    · by_cases hb : cfg.mode ≠ .bnn3 ∧ cfg.mode ≠ .bnn4
      · have := hm hb r k
        rw [hL] at this
        rcases this with ⟨e, _⟩ | ⟨e, _⟩
        · exact .inl e
        · exact .inr e
      · left
        show encM cfg w _ = 0
        unfold encM
        rw [not_and_or, not_not, not_not] at hb
        rcases hb with hb | hb <;> rw [hb]

theorem addNoise_zero (h1 : cfg.hrsNoise ≤ 0) (h2 : cfg.lrsNoise ≤ 0) {g : Int} (hg : g = 0 ∨ g = 1) {rng : Nat} {a : K} :
    addNoise E cfg rng a g = .ok (a, rng) := by
  unfold addNoise
  rcases hg with rfl | rfl
  · rw [if_pos rfl, if_pos h1]
  · rw [if_neg (by decide), if_pos rfl, if_pos h2]

theorem addC2C_zero {mp : Mapper K} (hc : CoreShape E cfg mp.core) (hM : m ≤ cfg.R) (hN : n ≤ cfg.N)
    (h1 : cfg.hrsNoise ≤ 0) (h2 : cfg.lrsNoise ≤ 0)
    (hg : ∀ r k, (mp.core.gd.p.get r k = 0 ∨ mp.core.gd.p.get r k = 1) ∧
      (mp.core.gd.m.get r k = 0 ∨ mp.core.gd.m.get r k = 1))
    (hp : ∀ r k, mp.core.ia.p.get r k = mp.core.ia.pO.get r k)
    (hq : ∀ r k, mp.core.ia.m.get r k = mp.core.ia.mO.get r k) : addC2C E cfg mp m n = .ok mp := by
  unfold addC2C
  dsimp only
  rw [loop_still fun i hi => loop_still fun j hj => ?_]
  · rfl
  · have rdm : ∀ {α : Type} {A : Mat α}, A.rows = cfg.R → A.cols = cfg.N → A.rd i j = .ok (A.get i j) := by
      intro α A e1 e2
      unfold Mat.rd
      rw [if_pos ⟨by omega, by omega⟩]
    dsimp only
    rw [rdm hc.ia.pO.1 hc.ia.pO.2, ok_bind, rdm hc.gd.p.1 hc.gd.p.2, ok_bind, addNoise_zero h1 h2 (hg i j).1, ok_bind,
      ← hp, wr_same (by rw [hc.ia.p.1]; omega) (by rw [hc.ia.p.2]; omega), ok_bind, rdm hc.ia.mO.1 hc.ia.mO.2, ok_bind,
      rdm hc.gd.m.1 hc.gd.m.2, ok_bind, addNoise_zero h1 h2 (hg i j).2, ok_bind, ← hq,
      wr_same (by rw [hc.ia.m.1]; omega) (by rw [hc.ia.m.2]; omega), ok_bind]

theorem removeC2C_zero {mp : Mapper K} (hc : IaShape cfg mp.core.ia) (hM : m ≤ cfg.R) (hN : n ≤ cfg.N)
    (hp : ∀ r k, mp.core.ia.p.get r k = mp.core.ia.pO.get r k)
    (hq : ∀ r k, mp.core.ia.m.get r k = mp.core.ia.mO.get r k) : removeC2C mp m n = .ok mp := by
  unfold removeC2C
  dsimp only
  rw [loop_still fun i hi => loop_still fun j hj => ?_]
  · rfl
  · have rdm : ∀ {α : Type} {A : Mat α}, A.rows = cfg.R → A.cols = cfg.N → A.rd i j = .ok (A.get i j) := by
      intro α A e1 e2
      unfold Mat.rd
      rw [if_pos ⟨by omega, by omega⟩]
    rw [rdm hc.pO.1 hc.pO.2, ok_bind, ← hp, wr_same (by rw [hc.p.1]; omega) (by rw [hc.p.2]; omega), ok_bind,
      rdm hc.mO.1 hc.mO.2, ok_bind, ← hq, wr_same (by rw [hc.m.1]; omega) (by rw [hc.m.2]; omega), ok_bind]

theorem xMvm_zero (hok : CfgOk cfg) (hi : cfg.mode.isInt = false) (hrd : cfg.readDisturb = false)
    (h1 : cfg.hrsNoise ≤ 0) (h2 : cfg.lrsNoise ≤ 0) (hr : Runs E cfg h x) (hM : m ≤ cfg.R) (hN : n ≤ cfg.N) :
    xMvm E (still cfg) x res vec mat m n l = xMvm E cfg x res vec mat m n l := by
  unfold xMvm
  dsimp only
  rw [still_dMvm]
  cases hdo : cfg.digitalOnly with
  | true => 
    rw [if_pos (show (still cfg).digitalOnly = true from hdo)]
    rfl
  | false =>
    have hs := runs_shape hr
    have B := runs_binCur hok hi hdo hrd hr
    rw [if_neg (show ¬(still cfg).digitalOnly = true by rw [show (still cfg).digitalOnly = _ from hdo]; decide)]
    cases hc : cfg.c2c with
    | false => 
      have : still cfg = cfg := by
        unfold still
        rw [← hc]
      rw [this, hc]
      rfl
    | true =>
      have hg : ∀ r k, (x.mapper.core.gd.p.get r k = 0 ∨ x.mapper.core.gd.p.get r k = 1) ∧
        (x.mapper.core.gd.m.get r k = 0 ∨ x.mapper.core.gd.m.get r k = 1) := bits01 hok hi hdo hrd hr
      have hn : ¬(still cfg).c2c = true := Bool.false_ne_true
      have hd : ¬(still cfg).readDisturb = true := by
        rw [show (still cfg).readDisturb = _ from hrd]
        decide
      simp only [if_neg hn, if_neg hd, hrd, Bool.false_eq_true, if_false, if_true, addC2C_zero hs.core hM hN h1 h2 hg B.eqP B.eqM,
        ok_bind, still_aMvm]
      refine congrArg (fun f => _ >>= f) (funext fun q => ?_)
      rw [removeC2C_zero (mp := ⟨x.mapper.core, q.1⟩) (cfg := cfg) hs.core.ia hM hN B.eqP B.eqM, ok_bind]

theorem exec_zero (hok : CfgOk cfg) (hi : cfg.mode.isInt = false) (hrd : cfg.readDisturb = false)
    (h1 : cfg.hrsNoise ≤ 0) (h2 : cfg.lrsNoise ≤ 0) {ops : List Op} (hr : Runs E cfg h x) (hd : Inside cfg ops) :
    exec E (still cfg) x ops = exec E cfg x ops := by
  have hMR : cfg.M ≤ cfg.R := Nat.le_mul_of_pos_right _ (cfgOk_S_pos hok)
  induction ops generalizing h x with
  | nil => rfl
  | cons op ops ih =>
    cases op with
    | write mat m n =>
      unfold exec
      rw [still_xWrite]
      cases hw : xWrite E cfg x mat m n with
      | error e => rfl
      | ok y => exact ih (.write hr hw) hd.2
    | mvm res vec mat m n l =>
      unfold exec
      rw [xMvm_zero hok hi hrd h1 h2 hr (hd.1.1.trans hMR) hd.1.2]
      cases hw : xMvm E cfg x res vec mat m n l with
      | error e => rfl
      | ok q =>
        rw [ok_bind, ok_bind]
        dsimp only
        rw [ih (.mvm (r := q.2) hr hw) hd.2]

/-! ## The switch for device-to-device variation is read by the configuration only -/

theorem d2d_mkXbar {b : Bool} {rng : Nat} {hs : List (String × Hist K)} :
    mkXbar E { cfg with d2d := b } rng hs = mkXbar E cfg rng hs := rfl

theorem d2d_xWrite {b : Bool} : xWrite E { cfg with d2d := b } x mat m n = xWrite E cfg x mat m n := rfl

theorem d2d_xMvm {b : Bool} : xMvm E { cfg with d2d := b } x res vec mat m n l = xMvm E cfg x res vec mat m n l := rfl

/-! ## Integer mappings -/

/-- Writes of integer mappings never record the currents as the ones variation starts from. -/
theorem runs_orig (hi : cfg.mode.isInt = true) (hdo : cfg.digitalOnly = false) (hrd : cfg.readDisturb = false) (hr : Runs E cfg h x) (r k : Nat) :
    x.mapper.core.ia.pO.get r k = cfg.hrs ∧ x.mapper.core.ia.mO.get r k = cfg.hrs := by
  induction hr with
  | init h =>
    rw [(mkCore_inv (mkXbar_inv h).1).2.2.2.1]
    exact ⟨rfl, rfl⟩
  | @write hs x x' mat m n hr h' ih =>
    have := (cont_aWrite_ok (runs_shape hr) h' hdo rfl).1 hi
    rw [this.pO, this.mO]
    exact ih
  | mvm hr h' ih =>
    have := xMvm_ia (runs_shape hr) hrd h'
    rw [this.1, this.2.1]
    exact ih

theorem only_exits {mp : Mapper K} (hc : CoreShape E cfg mp.core) (hm : m ≤ cfg.R) (hn : n ≤ cfg.N) :
    Sat (fun e => e = .exited) (addC2C E cfg mp m n) fun _ => True := by
  have hN : ∀ (r : Nat) (y : K) (k : Int), Sat (fun e => e = .exited) (Acs.addNoise E cfg r y k) fun _ => True := by
    intro r y k
    unfold Acs.addNoise
    exact Sat.ite (fun _ => Sat.ite (fun _ => trivial) fun _ => trivial) fun _ =>
      Sat.ite (fun _ => Sat.ite (fun _ => trivial) fun _ => trivial) fun _ => rfl
  unfold addC2C
  refine Sat.bind (P := fun r => IaShape cfg r.1) ?_ fun r hr => trivial
  refine Sat.loop2 (I := fun r : Ia K × Nat => IaShape cfg r.1) hc.ia fun i j hi hj st hia => ?_
  have hb : ¬((fun e => e = .exited) Fault.oob) → i < cfg.R ∧ j < cfg.N :=
    fun hn => by omega
  exact Sat.bind (Sat.mrdIs hia.pO hb) fun _ _ => Sat.bind (Sat.mrdIs hc.gd.p hb) fun _ _ =>
    Sat.bind (hN _ _ _) fun _ _ => Sat.bind (Sat.mwrIs hia.p hb) fun p hp =>
    Sat.bind (Sat.mrdIs hia.mO hb) fun _ _ => Sat.bind (Sat.mrdIs hc.gd.m hb) fun _ _ =>
    Sat.bind (hN _ _ _) fun _ _ => Sat.bind (Sat.mwrIs hia.m hb) fun q hq =>
    ⟨hp, hq, hia.pO, hia.mO⟩

/-- A state above 1 among the cells that get variation ends the program. -/
theorem xMvm_exits (hdo : cfg.digitalOnly = false) (hc2 : cfg.c2c = true) (hr : Runs E cfg h x) (hM : m ≤ cfg.R)
    (hN : n ≤ cfg.N) {r k : Nat} (h1 : r < m) (h2 : k < n)
    (hg : ¬((x.mapper.core.gd.p.get r k = 0 ∨ x.mapper.core.gd.p.get r k = 1) ∧
      (x.mapper.core.gd.m.get r k = 0 ∨ x.mapper.core.gd.m.get r k = 1))) :
    xMvm E cfg x res vec mat m n l = .error .exited := by
  have hs := runs_shape hr
  have he := only_exits hs.core hM hN
  unfold xMvm
  dsimp only
  rw [hdo, hc2, if_neg (by decide), if_pos rfl]
  cases hA : addC2C E cfg x.mapper m n with
  | error e =>
    rw [hA] at he
    rw [show e = .exited from he]
    rfl
  | ok mp =>
    have := (addC2C_cont hA hs.core.ia).2.2.2 r k
    rw [if_pos ⟨h1, h2⟩] at this
    refine absurd ⟨?_, ?_⟩ hg
    · exact this.1.imp And.left And.left
    · exact this.2.imp And.left And.left

end

end Acs
