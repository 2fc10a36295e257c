import Verif.Lemmas.ApplyTwice
import Verif.Lemmas.Frame
import Verif.Lemmas.SafeXbar
import Verif.SpecSame

/-!
# Configurations with the same effective parameters behave alike

`Alike c d` is `SameEffective` together with the two switches that a file may leave as they were.  The functions
of the crossbar give the same results for `c` and `d`; for an ideal converter the number of steps stored in the
converter may differ, which `setAdc` accounts for.
-/

set_option linter.unusedSectionVars false

namespace Acs

open Spec

section
variable {K : Type} [Field K] [LinearOrder K] [IsStrictOrderedRing K] [FloorRing K]
variable {E : Env K} {c d : Cfg K} {k : Core K} {b : Adc} {mp : Mapper K} {x : Xbar K} {m n : Nat}

/-! ## Calls with the same outcome -/

/-- The same outcome, up to states related by `P`. -/
inductive Sim {α : Type} (P : World K → World K → Prop) : R K (World K × α) → R K (World K × α) → Prop
  | ok {u v : World K} {a : α} (h : P u v) : Sim P (.ok (u, a)) (.ok (v, a))
  | dead {f : Fault} : Sim P (.error (.dead f)) (.error (.dead f))
  | threw {u v : World K} : Sim P (.error (.threw u)) (.error (.threw v))

namespace Sim
variable {α β : Type} {P : World K → World K → Prop}

theorem bind {p q : R K (World K × α)} {f g : World K × α → R K (World K × β)} (h : Sim P p q)
    (hf : ∀ u v a, P u v → Sim P (f (u, a)) (g (v, a))) : Sim P (p >>= f) (q >>= g) := by
  cases h with
  | ok h => exact hf _ _ _ h
  | dead => exact .dead
  | threw => exact .threw

theorem heard_eq {p q : R K (World K × α)} (h : Sim P p q) : heard q = heard p := by
  cases h <;> rfl

theorem of_ok {p q : R K (World K × α)} {u : World K} {a : α} (h : Sim P p q) (hp : p = .ok (u, a)) :
    ∃ v, q = .ok (v, a) ∧ P u v := by
  cases h with
  | ok h => cases hp; exact ⟨_, rfl, h⟩
  | dead => cases hp
  | threw => cases hp

theorem lift_error {e : Fault} {u v : World K} {f : β → R K (World K × α)} {γ : Type} {g : γ → R K (World K × α)} :
    Sim P (lift u (.error e : C β) >>= f) (lift v (.error e : C γ) >>= g) := by
  cases e <;> first | exact .threw | exact .dead

theorem serve
    (hw : ∀ u v, P u v → ∀ mat (m n : Int), Sim P (cpyMtrx E mat m n u) (cpyMtrx E mat m n v))
    (hm : ∀ u v, P u v → ∀ res vec mat (m n : Int) l,
      Sim P (exeMvm E res vec mat m n l u) (exeMvm E res vec mat m n l v)) :
    ∀ {ops : List Op} {u v : World K}, P u v → Sim P (Spec.serve E u ops) (Spec.serve E v ops)
  | [], _, _, h => .ok h
  | .write _ _ _ :: _, u, v, h => (hw u v h _ _ _).bind fun _ _ _ h' => (serve hw hm h').bind fun _ _ _ h => .ok h
  | .mvm _ _ _ _ _ _ :: _, u, v, h =>
    (hm u v h _ _ _ _ _ _).bind fun _ _ _ h' => (serve hw hm h').bind fun _ _ _ h => .ok h

end Sim

/-- Analog configurations that differ in nothing that matters. -/
structure Alike (c d : Cfg K) : Prop where
  eff : SameEffective c d
  ana : c.digitalOnly = false
  rd : d.readDisturb = c.readDisturb
  prof : d.adcProfile = c.adcProfile

/-- Converters that convert alike under `c`. -/
structure AdcAlike (c : Cfg K) (a b : Adc) : Prop where
  kind : a.kind = c.adcType
  same : b.kind = a.kind
  steps : a.kind ≠ .inf → b = a

/-- A core with another converter. -/
def Core.withAdc (k : Core K) (b : Adc) : Core K := { k with adc := b }

def Mapper.withAdc (mp : Mapper K) (b : Adc) : Mapper K := { mp with core := mp.core.withAdc b }

def Xbar.withAdc (x : Xbar K) (b : Adc) : Xbar K := { x with mapper := x.mapper.withAdc b }

namespace Alike
variable (A : Alike c d)
include A

theorem S : d.S = c.S := by unfold Cfg.S; rw [A.eff.split]
theorem R : d.R = c.R := by unfold Cfg.R; rw [A.S, A.eff.dims.1]
theorem dig : d.digitalOnly = c.digitalOnly := A.eff.digital

theorem conv1 {a : Adc} (h : AdcAlike c a b) : Acs.conv1 E d b = Acs.conv1 E c a := by
  funext cur sc off l
  unfold Acs.conv1
  rw [h.same]
  by_cases hi : a.kind = .inf
  · rw [hi]
  · rw [h.steps hi]
    have hc := h.kind ▸ hi
    have : convQuant E d a cur sc off l = convQuant E c a cur sc off l := by
      have hg : getCurrents E d a.kind l = getCurrents E c a.kind l := by
        unfold getCurrents minCurrent maxCurrent
        rw [(A.eff.adc A.ana hc).2, A.eff.dims.2, (A.eff.states A.ana).1, (A.eff.states A.ana).2]
        cases hm : c.calibMode
        · rfl
        · simp only [A.eff.dict A.ana hc hm]
      unfold convQuant
      rw [hg]
    cases a.kind <;> first | rfl | exact this

theorem convVec {a : Adc} (h : AdcAlike c a b) : Acs.convVec E d b = Acs.convVec E c a := by
  funext hs v len sc off l
  unfold Acs.convVec
  rw [A.conv1 h, A.prof]
  cases hp : c.adcProfile
  · rfl
  · have : getHist E d b hs l = getHist E c a hs l := by
      unfold getHist
      cases hs.lookup l
      · rw [h.same]
        by_cases hi : a.kind = .inf
        · rw [if_pos hi, if_pos hi]
        · rw [if_neg hi, if_neg hi, A.eff.bin A.ana (h.kind ▸ hi) hp]
          unfold minCurrent maxCurrent
          rw [A.eff.dims.2, (A.eff.states A.ana).1, (A.eff.states A.ana).2]
      · rfl
    unfold profileInputs
    rw [this]

theorem colCurrents : Acs.colCurrents E d (k.withAdc b) = Acs.colCurrents E c k := by
  unfold Acs.colCurrents
  rw [A.eff.par A.ana]
  rfl

theorem intCurrents : Acs.intCurrents E d (k.withAdc b) = Acs.intCurrents E c k := by
  unfold Acs.intCurrents
  rw [A.eff.par A.ana, A.S]
  rfl

theorem intConv (h : AdcAlike c k.adc b) : Acs.intConv E d (k.withAdc b) = Acs.intConv E c k := by
  unfold Acs.intConv
  rw [A.S]
  simp only [Core.withAdc]
  rw [A.conv1 h]

theorem intBit (h : AdcAlike c k.adc b) : Acs.intBit E d (k.withAdc b) = Acs.intBit E c k := by
  unfold Acs.intBit
  rw [A.S, A.intCurrents, A.intConv h]
  rfl

theorem intBitV (h : AdcAlike c k.adc b) : Acs.intBitV E d (k.withAdc b) = Acs.intBitV E c k := by
  unfold Acs.intBitV
  rw [A.S, A.intCurrents, A.intConv h]
  rfl

theorem aMvm (h : AdcAlike c k.adc b) (hm : k.mode = c.mode) :
    Acs.aMvm E d (k.withAdc b) = Acs.aMvm E c k := by
  have hv := A.convVec (E := E) h
  have hcc := A.colCurrents (E := E) (k := k) (b := b)
  have hib := A.intBit (E := E) h
  have hibv := A.intBitV (E := E) h
  have hic := A.intCurrents (E := E) (k := k) (b := b)
  have hicv := A.intConv (E := E) h
  have hh := (A.eff.states A.ana).1
  have hp := A.eff.par A.ana
  have hsp := A.eff.split
  have hS := A.S
  have hI : c.mode.isInt = true → d.iBit = c.iBit ∧ d.wBit = c.wBit := fun e =>
    ⟨A.eff.iBit (isInt_iff.1 e), A.eff.wBit (.inl (isInt_iff.1 e))⟩
  rw [← hm] at hI
  funext a res vec m n l
  unfold Acs.aMvm
  have hk : (k.withAdc b).mode = k.mode := rfl
  rw [hk]
  have h1 : (k.withAdc b).gd = k.gd := rfl
  have h2 : (k.withAdc b).ia = k.ia := rfl
  have h3 : (k.withAdc b).adc = b := rfl
  have h4 : (k.withAdc b).iMM = k.iMM := rfl
  have h5 : (k.withAdc b).delta = k.delta := rfl
  have h6 : (k.withAdc b).par = k.par := rfl
  cases hmd : k.mode
  all_goals simp only
  all_goals first
    | (obtain ⟨hi, hw⟩ := hI (by rw [hmd]; rfl)
       first
       | (unfold aMvmIntI; rw [hib, hi])
       | (unfold aMvmIntII; rw [hib, hi, h1])
       | (unfold aMvmIntIII; rw [hib, hi, hic, hicv, h2, hS])
       | (unfold aMvmIntIV; rw [hib, hi])
       | (unfold aMvmIntV; rw [hibv, hi, hw, h5]))
    | (unfold aMvmBnnI; rw [hcc, h1, h2, h3, h4, hv])
    | (unfold aMvmBnnII; rw [hcc, h1, h2, h3, h4, hv])
    | (unfold aMvmBnnIII bnn34Currents; rw [hcc, h2, h3, h4, hv, hh])
    | (unfold aMvmBnnIV bnn34Currents; rw [hcc, h2, h3, h4, hv, hh])
    | (unfold aMvmBnnV; rw [hcc, h2, h3, h4, hv, hh])
    | (unfold aMvmBnnVI; rw [hcc, h2, h3, h4, hv])
    | (unfold aMvmTnnI; rw [hcc, h2, h3, h4, hv])
    | (unfold aMvmTnnII; rw [hcc, h2, h3, h4, hv])
    | (unfold aMvmTnnIII; rw [hcc, h1, h2, h3, h4, hv])
    | (unfold aMvmTnnIV tcStep tcSolve; rw [h2, h3, h4, h6, hv, hh, hp, hsp])
    | (unfold aMvmTnnV tcStep tcSolve; rw [h2, h3, h4, h6, hv, hh, hp, hsp])

/-! ## Writing -/

theorem addNoise : Acs.addNoise E d = Acs.addNoise E c := by
  unfold Acs.addNoise
  rw [(A.eff.noise A.ana).1, (A.eff.noise A.ana).2]

theorem setConductance : Acs.setConductance E d = Acs.setConductance E c := by
  have : divVRead E d = divVRead E c := by
    unfold divVRead
    rw [A.S, (A.eff.states A.ana).1]
  unfold Acs.setConductance divVReadOpt
  rw [this]

theorem pushSolver : Acs.pushSolver E d = Acs.pushSolver E c := by
  unfold Acs.pushSolver
  rw [A.eff.par A.ana, A.setConductance]

theorem dWrite {mat : Vec Int} (hm : mp.core.mode = c.mode) : Acs.dWrite E d (mp.withAdc b) mat m n =
    Acs.dWrite E c mp mat m n >>= fun y => .ok (y.withAdc b) := by
  have : dWriteGd E d (mp.withAdc b).core mat m n = dWriteGd E c mp.core mat m n := by
    unfold dWriteGd
    have hk : (mp.withAdc b).core.mode = mp.core.mode := rfl
    rw [hk, A.eff.split]
    cases h : mp.core.mode <;> try rfl
    rw [A.eff.wBit (.inl (by rw [← hm, h]; rfl))]
    rfl
  unfold Acs.dWrite
  rw [this]
  cases dWriteGd E c mp.core mat m n <;> rfl

theorem aWritePM : Acs.aWritePM E d (k.withAdc b) m n = Acs.aWritePM E c k m n := by
  unfold Acs.aWritePM
  rw [(A.eff.states A.ana).1]
  rfl

theorem aWriteP : Acs.aWriteP E d (k.withAdc b) m n = Acs.aWriteP E c k m n := by
  unfold Acs.aWriteP
  rw [(A.eff.states A.ana).1]
  rfl

theorem aWritePMBnnTnn {r : Nat} :
    Acs.aWritePMBnnTnn E d (k.withAdc b) r m n = Acs.aWritePMBnnTnn E c k r m n := by
  unfold Acs.aWritePMBnnTnn
  rw [(A.eff.states A.ana).1, (A.eff.states A.ana).2, A.addNoise]
  rfl

theorem aWritePBnn {r : Nat} : Acs.aWritePBnn E d (k.withAdc b) r m n = Acs.aWritePBnn E c k r m n := by
  unfold Acs.aWritePBnn
  rw [(A.eff.states A.ana).1, (A.eff.states A.ana).2, A.addNoise]
  rfl

theorem aWrite : Acs.aWrite E d (mp.withAdc b) m n =
    Acs.aWrite E c mp m n >>= fun y => .ok (y.withAdc b) := by
  unfold Acs.aWrite
  have h1 : (mp.withAdc b).core = mp.core.withAdc b := rfl
  have h2 : (mp.core.withAdc b).mode = mp.core.mode := rfl
  have h3 : (mp.withAdc b).aux = mp.aux := rfl
  have h4 : (mp.core.withAdc b).par = mp.core.par := rfl
  simp only [h1, h2, h3, h4, A.aWritePM, A.aWriteP, A.aWritePMBnnTnn, A.aWritePBnn, A.pushSolver, A.S]
  cases mp.core.mode <;> simp only [bind_assoc, ok_bind] <;> rfl

/-! ## Read disturb -/

theorem rdUpdate {rd : Rd K} {f g : Nat → Nat → C Nat} (hr : c.readDisturb = true) :
    Acs.rdUpdate E d (k.withAdc b) rd f g =
      Acs.rdUpdate E c k rd f g >>= fun y => .ok (y.1.withAdc b, y.2) := by
  have hs : rdStress E d = rdStress E c := by
    unfold rdStress
    rw [(A.eff.rd A.ana hr).1]
  have hf : rdFactor E d = rdFactor E c := by
    unfold rdFactor
    rw [hs]
  have hu : rdUpdMat E d = rdUpdMat E c := by
    unfold rdUpdMat
    rw [hf, (A.eff.states A.ana).2]
  unfold Acs.rdUpdate
  have h1 : (k.withAdc b).isDiff = k.isDiff := rfl
  have h2 : (k.withAdc b).gd = k.gd := rfl
  have h3 : (k.withAdc b).ia = k.ia := rfl
  rw [h1, h2, h3, hu]
  cases rdUpdMat E c rd f rd.cycP k.gd.p k.ia.p rd.oob with
  | error e => rfl
  | ok p =>
    simp only [ok_bind]
    cases k.isDiff
    · rfl
    · simp only [if_true]
      cases rdUpdMat E c rd g rd.cycM k.gd.m k.ia.m p.2 <;> rfl

theorem rdCheck {rd : Rd K} (hr : c.readDisturb = true) (hs : c.strategy = .software) :
    rdCheckSoftware E d rd = rdCheckSoftware E c rd := by
  unfold rdCheckSoftware rdStress
  rw [(A.eff.rd A.ana hr).1, A.eff.fp A.ana hr hs]

theorem rdCellRefresh {rd : Rd K} (hr : c.readDisturb = true) (hs : c.strategy = .cellBased) :
    Acs.rdCellRefresh E d (mp.withAdc b) rd =
      Acs.rdCellRefresh E c mp rd >>= fun y => .ok (y.1.withAdc b, y.2) := by
  have ho : rdOutside E d = rdOutside E c := by
    unfold rdOutside
    rw [A.eff.tol A.ana hr hs, (A.eff.states A.ana).2]
  have hu : rdRefMat E d = rdRefMat E c := by
    unfold rdRefMat
    rw [ho, A.addNoise, (A.eff.states A.ana).2]
  unfold Acs.rdCellRefresh
  have h1 : (mp.withAdc b).core.isDiff = mp.core.isDiff := rfl
  have h2 : (mp.withAdc b).core.gd = mp.core.gd := rfl
  have h3 : (mp.withAdc b).core.ia = mp.core.ia := rfl
  have h4 : (mp.withAdc b).aux = mp.aux := rfl
  simp only [h1, h2, h3, h4, hu]
  cases rdRefMat E c mp.core.gd.p ⟨mp.core.ia.p, rd.cycP, rd.rdP, mp.aux.rng, 0⟩ with
  | error e => rfl
  | ok p =>
    simp only [ok_bind]
    cases mp.core.isDiff
    · rfl
    · simp only [if_true]
      cases rdRefMat E c mp.core.gd.m ⟨mp.core.ia.m, rd.cycM, rd.rdM, p.rng, p.cnt⟩ <;> rfl

theorem softwareRefresh {rd : Rd K} : Acs.softwareRefresh E d (x.withAdc b) rd =
    Acs.softwareRefresh E c x rd >>= fun y => .ok (y.withAdc b) := by
  have hl : lrsMat d = lrsMat c := by
    unfold lrsMat
    rw [A.R, A.eff.dims.2]
  unfold Acs.softwareRefresh
  have h1 : (x.withAdc b).mapper = x.mapper.withAdc b := rfl
  have h2 : (x.mapper.withAdc b).core.gd = x.mapper.core.gd := rfl
  have h3 : (x.mapper.withAdc b).core.isDiff = x.mapper.core.isDiff := rfl
  have h4 : (x.withAdc b).refC = x.refC := rfl
  simp only [h1, h2, h3, h4, hl, A.R, A.eff.dims.1, A.eff.dims.2, A.aWrite, bind_assoc, ok_bind]
  rfl

theorem rdStep (hr : c.readDisturb = true) : Acs.rdStep E d (x.withAdc b) m n =
    Acs.rdStep E c x m n >>= fun y => .ok (y.withAdc b) := by
  obtain ⟨-, hq, hs⟩ := A.eff.rd A.ana hr
  unfold Acs.rdStep
  have h1 : (x.withAdc b).mapper.core = x.mapper.core.withAdc b := rfl
  have h2 : (x.withAdc b).rd = x.rd := rfl
  have h3 : (x.withAdc b).consec = x.consec := rfl
  have h4 : (x.withAdc b).writes = x.writes := rfl
  have h5 : (x.withAdc b).refX = x.refX := rfl
  have hur : updateReads d = updateReads c := by
    funext r m n
    unfold updateReads
    rw [A.S]
  simp only [h1, h2, h3, h4, h5, hq, hs, hur]
  cases hst : c.strategy
  · simp only
    split
    · rfl
    split
    · cases x.rd with
      | none => rfl
      | some rd =>
        simp only [A.rdUpdate hr, bind_assoc, ok_bind]
        rfl
    · rfl
  · simp only
    split
    · rfl
    split
    · cases x.rd with
      | none => rfl
      | some rd =>
        simp only [A.rdUpdate hr, bind_assoc, ok_bind, A.rdCheck hr hst]
        congr 1
        funext r
        split
        · exact A.softwareRefresh (x := { x with
            mapper := { x.mapper with core := r.1 },
            rd := some { r.2 with oob := r.2.oob || rdOob E (x.writes + x.refX) } })
        · rfl
    · rfl
  · simp only
    cases x.rd with
    | none => rfl
    | some rd =>
      simp only [bind_assoc]
      congr 1
      funext rd
      split
      · rfl
      split
      · simp only [A.rdUpdate hr, bind_assoc, ok_bind]
        congr 1
        funext r
        have := A.rdCellRefresh (E := E) (mp := { x.mapper with core := r.1 }) (b := b) (rd := r.2) hr hst
        have e : ({ x.mapper with core := r.1 } : Mapper K).withAdc b =
          { (x.withAdc b).mapper with core := r.1.withAdc b } := rfl
        rw [e] at this
        simp only [this, bind_assoc, ok_bind]
        rfl
      · rfl

/-! ## The crossbar -/

theorem xWrite {mat : Vec Int} (hm : x.mapper.core.mode = c.mode) :
    Acs.xWrite E d (x.withAdc b) mat m n = Acs.xWrite E c x mat m n >>= fun y => .ok (y.withAdc b) := by
  have hrm : resetMat d = resetMat c := by
    unfold resetMat
    rw [A.R, A.eff.dims.2]
  have hrr : resetReads d = resetReads c := by
    unfold resetReads
    rw [A.R, A.eff.dims.2]
  have hx : xWriteD E d (x.withAdc b) mat m n =
      xWriteD E c x mat m n >>= fun y => .ok (y.1.withAdc b, y.2) := by
    unfold xWriteD
    have h1 : (x.withAdc b).mapper = x.mapper.withAdc b := rfl
    have h2 : (x.withAdc b).rd = x.rd := rfl
    simp only [h1, h2, A.rd, hrm, hrr, A.dWrite hm]
    cases hr : c.readDisturb
    · simp only [Bool.false_eq_true, if_false, bind_assoc, ok_bind]
    · simp only [if_true, bind_assoc, ok_bind, (A.eff.rd A.ana hr).2.2]
      have h3 : (x.mapper.withAdc b).core.gd = x.mapper.core.gd := rfl
      have h4 : ∀ y : Mapper K, (y.withAdc b).core.gd = y.core.gd := fun _ => rfl
      simp only [h3, h4]
      cases x.rd with
      | none => congr 1
      | some rd => simp only [bind_assoc, ok_bind]
  unfold Acs.xWrite
  simp only [hx, A.dig, A.ana, Bool.false_eq_true, if_false, bind_assoc, ok_bind, A.aWrite]
  rfl

theorem addC2C : Acs.addC2C E d (mp.withAdc b) m n =
    Acs.addC2C E c mp m n >>= fun y => .ok (y.withAdc b) := by
  unfold Acs.addC2C
  rw [A.addNoise]
  simp only [bind_assoc, ok_bind]
  rfl

omit A in
theorem addC2C_keeps {y : Mapper K} (h : Acs.addC2C E c mp m n = .ok y) :
    y.core.adc = mp.core.adc ∧ y.core.mode = mp.core.mode := by
  unfold Acs.addC2C at h
  obtain ⟨r, -, h⟩ := bind_eq_ok.1 h
  cases h
  exact ⟨rfl, rfl⟩

omit A in
theorem removeC2C : Acs.removeC2C (mp.withAdc b) m n =
    Acs.removeC2C mp m n >>= fun y => .ok (y.withAdc b) := by
  unfold Acs.removeC2C
  simp only [bind_assoc, ok_bind]
  rfl

theorem xMvm {res vec mat : Vec Int} {l : String} (h : AdcAlike c x.mapper.core.adc b)
    (hm : x.mapper.core.mode = c.mode) : Acs.xMvm E d (x.withAdc b) res vec mat m n l =
      Acs.xMvm E c x res vec mat m n l >>= fun y => .ok (y.1.withAdc b, y.2) := by
  unfold Acs.xMvm
  simp only [A.dig, A.ana, Bool.false_eq_true, if_false, (A.eff.vari A.ana).2, A.rd]
  have h1 : (x.withAdc b).mapper = x.mapper.withAdc b := rfl
  simp only [h1]
  have key : ∀ mp : Mapper K, mp.core.adc = x.mapper.core.adc → mp.core.mode = x.mapper.core.mode →
      (do
        let r ← Acs.aMvm E d (mp.withAdc b).core (mp.withAdc b).aux res vec m n l
        let mp ← (if c.c2c then Acs.removeC2C { mp.withAdc b with aux := r.1 } m n
          else .ok { mp.withAdc b with aux := r.1 })
        let x' : Xbar K := { x.withAdc b with mvms := x.mvms + 1, consec := x.consec + 1, mapper := mp }
        let x' ← (if c.readDisturb then Acs.rdStep E d x' m n else .ok x')
        (.ok (x', r.2) : C (Xbar K × Vec Int))) =
      (do
        let r ← Acs.aMvm E c mp.core mp.aux res vec m n l
        let mp ← (if c.c2c then Acs.removeC2C { mp with aux := r.1 } m n else .ok { mp with aux := r.1 })
        let x' : Xbar K := { x with mvms := x.mvms + 1, consec := x.consec + 1, mapper := mp }
        let x' ← (if c.readDisturb then Acs.rdStep E c x' m n else .ok x')
        (.ok (x'.withAdc b, r.2) : C (Xbar K × Vec Int))) := by
    intro mp e1 e2
    have ha : Acs.aMvm E d (mp.withAdc b).core = Acs.aMvm E c mp.core :=
      A.aMvm (by rw [e1]; exact h) (e2.trans hm)
    rw [ha]
    congr 1
    funext r
    have hrem : (if c.c2c then Acs.removeC2C { mp.withAdc b with aux := r.1 } m n
        else .ok { mp.withAdc b with aux := r.1 }) =
        (if c.c2c then Acs.removeC2C { mp with aux := r.1 } m n else .ok { mp with aux := r.1 }) >>=
          fun y => .ok (y.withAdc b) := by
      cases c.c2c
      · rfl
      · exact removeC2C (mp := { mp with aux := r.1 })
    rw [hrem]
    simp only [bind_assoc, ok_bind]
    congr 1
    funext y
    cases hr : c.readDisturb
    · rfl
    · simp only [if_true]
      have := A.rdStep (E := E) (b := b) (m := m) (n := n)
        (x := { x with mvms := x.mvms + 1, consec := x.consec + 1, mapper := y }) hr
      have e : ({ x with mvms := x.mvms + 1, consec := x.consec + 1, mapper := y } : Xbar K).withAdc b =
        { x.withAdc b with mvms := x.mvms + 1, consec := x.consec + 1, mapper := y.withAdc b } := rfl
      rw [e] at this
      simp only [this, bind_assoc, ok_bind]
  cases hc : c.c2c
  · simp only [hc, Bool.false_eq_true, if_false, ok_bind] at key ⊢
    have := key x.mapper rfl rfl
    refine this.trans ?_
    simp only [bind_assoc, ok_bind]
  · simp only [hc, if_true] at key ⊢
    rw [A.addC2C]
    cases hy : Acs.addC2C E c x.mapper m n with
    | error e => rfl
    | ok y =>
      obtain ⟨e1, e2⟩ := addC2C_keeps hy
      simp only [ok_bind]
      refine (key y e1 e2).trans ?_
      simp only [bind_assoc, ok_bind]

/-! ## Construction -/

omit A in
theorem mkAdc_kind {a : Adc} (h : mkAdc c = .ok a) : a.kind = c.adcType := by
  unfold mkAdc at h
  obtain ⟨st, -, h⟩ := bind_eq_ok.1 h
  cases hk : c.adcType <;> rw [hk] at h <;> simp only at h
  · cases h; rfl
  · obtain ⟨_, -, h⟩ := bind_eq_ok.1 h
    cases h; rfl
  · cases h; rfl

theorem mkAdc {a : Adc} (h : Acs.mkAdc c = .ok a) (h' : Acs.mkAdc d = .ok b) : AdcAlike c a b := by
  have h1 := mkAdc_kind h
  have h2 := mkAdc_kind h'
  refine ⟨h1, by rw [h1, h2, A.eff.adcType A.ana], fun hi => ?_⟩
  have : Acs.mkAdc d = Acs.mkAdc c := by
    unfold Acs.mkAdc
    rw [A.eff.adcType A.ana, (A.eff.adc A.ana (h1 ▸ hi)).1]
  rw [this, h] at h'
  cases h'
  rfl

theorem optSolver : Acs.optSolver d = Acs.optSolver c := by
  unfold Acs.optSolver
  rw [A.dig, A.eff.par A.ana, A.ana]
  cases hp : c.parasitics
  · rfl
  · unfold mkSolver
    rw [A.eff.mode, A.eff.dims.1, A.eff.dims.2, A.eff.wRes A.ana hp, A.eff.vRead A.ana (.inr hp)]

theorem optRd : Acs.optRd E d = Acs.optRd E c := by
  unfold Acs.optRd
  rw [A.rd]
  cases hr : c.readDisturb
  · rfl
  · unfold mkRd
    rw [A.R, A.eff.dims.2, A.eff.vRead A.ana (.inl hr)]

theorem mkXbar {y : Xbar K} {r : Nat} {hs : List (String × Hist K)} (h : Acs.mkXbar E c r hs = .ok x)
    (h' : Acs.mkXbar E d r hs = .ok y) : AdcAlike c x.mapper.core.adc y.mapper.core.adc ∧
      y = x.withAdc y.mapper.core.adc := by
  unfold Acs.mkXbar at h h'
  obtain ⟨mp, hmp, h⟩ := bind_eq_ok.1 h
  obtain ⟨rd, hrd, h⟩ := bind_eq_ok.1 h
  obtain ⟨mp', hmp', h'⟩ := bind_eq_ok.1 h'
  obtain ⟨rd', hrd', h'⟩ := bind_eq_ok.1 h'
  cases h
  cases h'
  rw [A.optRd, hrd] at hrd'
  cases hrd'
  unfold mkMapper at hmp hmp'
  obtain ⟨k, hk, hmp⟩ := bind_eq_ok.1 hmp
  obtain ⟨k', hk', hmp'⟩ := bind_eq_ok.1 hmp'
  cases hmp
  cases hmp'
  have haux : mkAux d r hs = mkAux c r hs := by
    unfold mkAux
    rw [A.eff.dims.1, A.eff.dims.2, A.R, A.eff.mode]
  rw [haux]
  unfold mkCore at hk hk'
  obtain ⟨a, ha, hk⟩ := bind_eq_ok.1 hk
  obtain ⟨a', ha', hk'⟩ := bind_eq_ok.1 hk'
  have hab := A.mkAdc ha ha'
  obtain ⟨s, hs1, hk⟩ := bind_eq_ok.1 hk
  obtain ⟨s', hs2, hk'⟩ := bind_eq_ok.1 hk'
  rw [A.optSolver, hs1] at hs2
  cases hs2
  have hdel : ∀ i v, optDelta E d i v = optDelta E c i v := fun i v => by
    unfold optDelta deltaOf
    rw [A.eff.mode, A.dig, A.S, A.eff.split, (A.eff.states A.ana).1]
  have hsh : (d.mode.isInt || d.mode == .tnn4) = true → d.wBit = c.wBit := fun e => by
    rw [A.eff.mode] at e
    rw [Bool.or_eq_true] at e
    exact A.eff.wBit (e.imp isInt_iff.1 fun e => .inl (beq_iff_eq.1 e))
  simp only [A.eff.mode, A.S, A.R, A.dig, A.ana, A.eff.split, (A.eff.states A.ana).1, (A.eff.states A.ana).2,
    A.eff.dims.1, A.eff.dims.2, hdel, Bool.false_eq_true, if_false, Bool.and_false, Bool.false_and] at hk hk' hsh
  by_cases hu : (c.mode.isInt || c.mode == .tnn4) = true
  · rw [hsh hu] at hk'
    obtain ⟨t, ht, hk⟩ := bind_eq_ok.1 hk
    obtain ⟨t', ht', hk'⟩ := bind_eq_ok.1 hk'
    rw [ht] at ht'
    cases ht'
    obtain ⟨q, hq, hk⟩ := bind_eq_ok.1 hk
    obtain ⟨q', hq', hk'⟩ := bind_eq_ok.1 hk'
    rw [hq] at hq'
    cases hq'
    cases hk
    cases hk'
    exact ⟨hab, rfl⟩
  · simp only [if_neg hu] at hk hk'
    obtain ⟨t, ht, hk⟩ := bind_eq_ok.1 hk
    obtain ⟨t', ht', hk'⟩ := bind_eq_ok.1 hk'
    rw [ht] at ht'
    cases ht'
    obtain ⟨q, hq, hk⟩ := bind_eq_ok.1 hk
    obtain ⟨q', hq', hk'⟩ := bind_eq_ok.1 hk'
    rw [hq] at hq'
    cases hq'
    cases hk
    cases hk'
    exact ⟨hab, rfl⟩

/-! ## Sessions -/

omit A in
theorem shape_adc (h : Shape E c x) : x.mapper.core.adc.kind = c.adcType := mkAdc_kind h.core.adc

/-- Two worlds whose configurations and crossbars are alike. -/
structure Twins (E : Env K) (w v : World K) (b : Adc) (x : Xbar K) : Prop where
  cfg : Alike w.cfg v.cfg
  left : w.xbar = some x
  right : v.xbar = some (x.withAdc b)
  adc : AdcAlike w.cfg x.mapper.core.adc b
  shape : Shape E w.cfg x

omit A in
theorem twins_write {w v : World K} {b : Adc} {x : Xbar K} {mat : Vec Int} {m n : Int} (T : Twins E w v b x) :
    Sim (fun w v => ∃ x, Twins E w v b x) (cpyMtrx E mat m n w) (cpyMtrx E mat m n v) := by
  have hbig : tooBig v m n ↔ tooBig w m n := by
    unfold tooBig
    rw [T.cfg.eff.dims.1, T.cfg.eff.dims.2]
  unfold cpyMtrx
  rw [T.left, T.right]
  by_cases hb : tooBig w m n
  · simp only [if_pos hb, if_pos (hbig.2 hb)]
    exact .ok ⟨x, T⟩
  · simp only [if_neg hb, if_neg (mt hbig.1 hb), T.cfg.xWrite T.shape.core.mode]
    cases h : Acs.xWrite E w.cfg x mat (toSize m) (toSize n) with
    | error e => exact Sim.lift_error
    | ok y =>
      have hs := xWrite_shape T.shape h
      refine .ok ⟨y, T.cfg, rfl, rfl, ?_, hs⟩
      have : y.mapper.core.adc = x.mapper.core.adc := by
        have h1 := hs.core.adc
        rw [T.shape.core.adc] at h1
        exact (Except.ok.inj h1).symm
      rw [this]
      exact T.adc

omit A in
theorem twins_mvm {w v : World K} {b : Adc} {x : Xbar K} {res vec mat : Vec Int} {m n : Int} {l : String}
    (T : Twins E w v b x) :
    Sim (fun w v => ∃ x, Twins E w v b x) (exeMvm E res vec mat m n l w) (exeMvm E res vec mat m n l v) := by
  have hbig : tooBig v m n ↔ tooBig w m n := by
    unfold tooBig
    rw [T.cfg.eff.dims.1, T.cfg.eff.dims.2]
  unfold exeMvm
  rw [T.left, T.right]
  by_cases hb : tooBig w m n
  · simp only [if_pos hb, if_pos (hbig.2 hb)]
    exact .ok ⟨x, T⟩
  · simp only [if_neg hb, if_neg (mt hbig.1 hb), T.cfg.xMvm T.adc T.shape.core.mode]
    cases h : Acs.xMvm E w.cfg x res vec mat (toSize m) (toSize n) l with
    | error e => exact Sim.lift_error
    | ok y =>
      have hs := xMvm_shape T.shape h
      refine .ok ⟨y.1, T.cfg, rfl, rfl, ?_, hs⟩
      have : y.1.mapper.core.adc = x.mapper.core.adc := by
        have h1 := hs.core.adc
        rw [T.shape.core.adc] at h1
        exact (Except.ok.inj h1).symm
      rw [this]
      exact T.adc

omit A in
theorem twins_serve {w v : World K} {b : Adc} {x : Xbar K} {ops : List Op} (T : Twins E w v b x) :
    Sim (fun w v => ∃ x, Twins E w v b x) (serve E w ops) (serve E v ops) :=
  Sim.serve (fun _ _ ⟨_, T⟩ _ _ _ => twins_write T) (fun _ _ ⟨_, T⟩ _ _ _ _ _ _ => twins_mvm T) ⟨x, T⟩

end Alike

/-! ## Digital configurations -/

/-- Digital configurations that differ in nothing that matters. -/
structure DAlike (c d : Cfg K) : Prop where
  eff : SameEffective c d
  dig : c.digitalOnly = true

/-- The random generator and the profile in scratch vectors of another crossbar. -/
def Aux.global (a : Aux K) (r : Nat) (hs : List (String × Hist K)) : Aux K := { a with rng := r, hists := hs }

/-- The crossbar `y` has the cells and the scratch vectors of `x`. -/
structure DTwin (x y : Xbar K) : Prop where
  mode : y.mapper.core.mode = x.mapper.core.mode
  gd : y.mapper.core.gd = x.mapper.core.gd
  shift : y.mapper.core.shift = x.mapper.core.shift
  aux : ∃ r hs, y.mapper.aux = x.mapper.aux.global r hs

namespace DAlike
variable (A : DAlike c d) {y : Xbar K}
include A

theorem S : d.S = c.S := by unfold Cfg.S; rw [A.eff.split]
theorem R : d.R = c.R := by unfold Cfg.R; rw [A.S, A.eff.dims.1]
theorem dig' : d.digitalOnly = true := by rw [A.eff.digital, A.dig]

theorem dMvm {k k' : Core K} {a : Aux K} {r : Nat} {hs : List (String × Hist K)} {res vec : Vec Int}
    (hm : k.mode = c.mode) (h1 : k'.mode = k.mode) (h2 : k'.gd = k.gd) (h3 : k'.shift = k.shift) :
    Acs.dMvm E d k' (a.global r hs) res vec m n =
      Acs.dMvm E c k a res vec m n >>= fun y => .ok (y.1.global r hs, y.2) := by
  have hS := A.S
  have hsp := A.eff.split
  have hI : c.mode.isInt = true → d.iBit = c.iBit ∧ d.wBit = c.wBit := fun e =>
    ⟨A.eff.iBit (isInt_iff.1 e), A.eff.wBit (.inl (isInt_iff.1 e))⟩
  rw [← hm] at hI
  unfold Acs.dMvm
  rw [h1]
  have a1 : (a.global r hs).vdP = a.vdP := rfl
  have a2 : (a.global r hs).vdM = a.vdM := rfl
  have a3 : (a.global r hs).tmpInt = a.tmpInt := rfl
  cases hmd : k.mode
  all_goals simp only
  all_goals first
    | (obtain ⟨hi, hw⟩ := hI (by rw [hmd]; rfl)
       first
       | (unfold dMvmIntI; simp only [bind_assoc, ok_bind, hS, h2, h3, a1, a2, a3]; rfl)
       | (unfold dMvmIntII; simp only [bind_assoc, ok_bind, hS, h2, h3, hi, a1, a3]; rfl)
       | (unfold dMvmIntIII; simp only [bind_assoc, ok_bind, hS, h2, h3, hi, a1, a3]; rfl)
       | (unfold dMvmIntIV; simp only [bind_assoc, ok_bind, hS, h2, h3, a3]; rfl)
       | (unfold dMvmIntV; simp only [bind_assoc, ok_bind, hS, h2, h3, hw, a3]; rfl))
    | (unfold dMvmBnnI; simp only [bind_assoc, ok_bind, h2, a1]; rfl)
    | (unfold dMvmBnnII; simp only [bind_assoc, ok_bind, h2, a1]; rfl)
    | (unfold dMvmBnnIII; simp only [bind_assoc, ok_bind, h2, a1, a2]; rfl)
    | (unfold dMvmBnnIV; simp only [bind_assoc, ok_bind, h2, a1, a2]; rfl)
    | (unfold dMvmBnnV; simp only [bind_assoc, ok_bind, h2, a1, a2]; rfl)
    | (unfold dMvmBnnVI; simp only [bind_assoc, ok_bind, h2, a1, a2]; rfl)
    | (unfold dMvmTnnI; simp only [bind_assoc, ok_bind, h2, a1, a2]; rfl)
    | (unfold dMvmTnnII; simp only [bind_assoc, ok_bind, h2, a1]; rfl)
    | (unfold dMvmTnnIII; simp only [bind_assoc, ok_bind, h2, a1]; rfl)
    | (unfold dMvmTnnIV; rw [hsp]; split
       · rfl
       · simp only [bind_assoc, ok_bind, h2, a1, a2]; rfl)
    | (unfold dMvmTnnV; rw [hsp]; split
       · rfl
       · simp only [bind_assoc, ok_bind, h2, a1, a2]; rfl)

theorem dWriteGd {k k' : Core K} {mat : Vec Int} (hm : k.mode = c.mode) (h1 : k'.mode = k.mode)
    (h2 : k'.gd = k.gd) (h3 : k'.shift = k.shift) :
    Acs.dWriteGd E d k' mat m n = Acs.dWriteGd E c k mat m n := by
  unfold Acs.dWriteGd
  rw [h1, h2, h3, A.eff.split]
  cases h : k.mode <;> try rfl
  simp only
  rw [A.eff.wBit (.inl (by rw [← hm, h]; rfl))]

omit A in
theorem sat_total {α : Type} {z : C α} {Q : α → Prop} (h : Sat (fun _ => False) z Q) : ∃ a, z = .ok a ∧ Q a := by
  rcases Sat.elim h with h | ⟨_, _, h⟩
  · exact h
  · exact h.elim

omit A in
/-- The bookkeeping of the read-disturb model does not fail. -/
theorem xWriteD_eq {mat : Vec Int} (hs : Shape E c x) : ∃ q, xWriteD E c x mat m n =
    Acs.dWriteGd E c x.mapper.core mat m n >>= fun gd =>
      .ok ({ x.mapper with core := { x.mapper.core with gd := gd } }, q) := by
  unfold xWriteD dWrite
  cases hg : Acs.dWriteGd E c x.mapper.core mat m n with
  | error e =>
    refine ⟨none, ?_⟩
    split <;> rfl
  | ok gd' =>
    have hgs : GdShape c gd' := (sat_dWriteGd lax_true hs.core (Fits.mk' fun h => absurd trivial h)
      (fun h => absurd trivial h)).of_ok hg
    split
    · next hrd =>
      obtain ⟨rd, hx, hrs⟩ := hs.rd hrd
      simp only [ok_bind, hx]
      obtain ⟨up, e1, hup⟩ := sat_total (sat_resetMat (F := fun _ => False) hs.core.gd.p hgs.p)
      obtain ⟨um, e2, hum⟩ := sat_total (sat_resetMat (F := fun _ => False) hs.core.gd.m hgs.m)
      obtain ⟨rd1, e3, h3⟩ := sat_total (sat_updateCycles (F := fun _ => False) hrs hup hum)
      rw [e1, ok_bind, e2, ok_bind, e3, ok_bind]
      split
      · obtain ⟨rd2, e4, h4⟩ := sat_total (sat_resetReads (F := fun _ => False) h3)
        exact ⟨some rd2, by rw [e4, ok_bind]⟩
      · exact ⟨some rd1, rfl⟩
    · exact ⟨x.rd, rfl⟩

theorem xWrite {mat : Vec Int} (hs : Shape E c x) (hs' : Shape E d y) (h : DTwin x y) :
    (∃ e, Acs.xWrite E c x mat m n = .error e ∧ Acs.xWrite E d y mat m n = .error e) ∨
    ∃ x' y', Acs.xWrite E c x mat m n = .ok x' ∧ Acs.xWrite E d y mat m n = .ok y' ∧ DTwin x' y' := by
  obtain ⟨q, e1⟩ := xWriteD_eq (mat := mat) (m := m) (n := n) hs
  obtain ⟨q', e2⟩ := xWriteD_eq (mat := mat) (m := m) (n := n) hs'
  unfold Acs.xWrite
  rw [e1, e2, A.dWriteGd hs.core.mode h.mode h.gd h.shift]
  simp only [A.dig, A.dig', if_true]
  cases Acs.dWriteGd E c x.mapper.core mat m n with
  | error e => exact .inl ⟨e, rfl, rfl⟩
  | ok gd => exact .inr ⟨_, _, rfl, rfl, h.mode, rfl, h.shift, h.aux⟩

theorem xMvm {res vec mat : Vec Int} {l : String} (hs : Shape E c x) (h : DTwin x y) :
    (∃ e, Acs.xMvm E c x res vec mat m n l = .error e ∧ Acs.xMvm E d y res vec mat m n l = .error e) ∨
    ∃ x' y' r, Acs.xMvm E c x res vec mat m n l = .ok (x', r) ∧ Acs.xMvm E d y res vec mat m n l = .ok (y', r) ∧
      DTwin x' y' := by
  obtain ⟨g, hh, e⟩ := h.aux
  unfold Acs.xMvm
  simp only [A.dig, A.dig', if_true]
  rw [e, A.dMvm hs.core.mode h.mode h.gd h.shift]
  cases Acs.dMvm E c x.mapper.core x.mapper.aux res vec m n with
  | error e => exact .inl ⟨e, rfl, rfl⟩
  | ok p => exact .inr ⟨_, _, _, rfl, rfl, h.mode, h.gd, h.shift, g, hh, rfl⟩

theorem mkXbar {r r' : Nat} {hs hs' : List (String × Hist K)} (h : Acs.mkXbar E c r hs = .ok x)
    (h' : Acs.mkXbar E d r' hs' = .ok y) : DTwin x y := by
  have s := mkXbar_shape h
  have t := mkXbar_shape h'
  have hmd : y.mapper.core.mode = x.mapper.core.mode := by rw [s.core.mode, t.core.mode, A.eff.mode]
  obtain ⟨h1, h2, -⟩ := mkXbar_inv h
  obtain ⟨h3, h4, -⟩ := mkXbar_inv h'
  refine ⟨hmd, ?_, ?_, r', hs', ?_⟩
  · rw [(mkCore_inv h1).2.2.1, (mkCore_inv h3).2.2.1, A.R, A.eff.dims.1, A.eff.dims.2]
  · rw [s.core.shift, t.core.shift, A.eff.mode, A.S, A.eff.split]
    split
    · next hu =>
      rw [Bool.or_eq_true] at hu
      rw [A.eff.wBit (hu.imp isInt_iff.1 fun e => .inl (beq_iff_eq.1 e))]
    · rfl
  · rw [h2, h4]
    unfold mkAux
    rw [A.eff.dims.1, A.eff.dims.2, A.R, A.eff.mode]
    rfl

/-! ## Sessions -/

/-- Two worlds whose configurations and crossbars are alike. -/
structure Twins (E : Env K) (w v : World K) : Prop where
  cfg : DAlike w.cfg v.cfg
  xbars : ∃ x y, w.xbar = some x ∧ v.xbar = some y ∧ DTwin x y ∧ Shape E w.cfg x ∧ Shape E v.cfg y

omit A in
theorem twins_write {w v : World K} {mat : Vec Int} {m n : Int} (T : Twins E w v) :
    Sim (Twins E) (cpyMtrx E mat m n w) (cpyMtrx E mat m n v) := by
  have hbig : tooBig v m n ↔ tooBig w m n := by
    unfold tooBig
    rw [T.cfg.eff.dims.1, T.cfg.eff.dims.2]
  obtain ⟨x, y, h1, h2, h3, h4, h5⟩ := T.xbars
  unfold cpyMtrx
  rw [h1, h2]
  by_cases hb : tooBig w m n
  · simp only [if_pos hb, if_pos (hbig.2 hb)]
    exact .ok T
  · simp only [if_neg hb, if_neg (mt hbig.1 hb)]
    rcases T.cfg.xWrite (mat := mat) (m := toSize m) (n := toSize n) h4 h5 h3 with ⟨e, e1, e2⟩ | ⟨x', y', e1, e2, e3⟩
    · rw [e1, e2]
      exact Sim.lift_error
    · rw [e1, e2]
      exact .ok ⟨T.cfg, x', y', rfl, rfl, e3, xWrite_shape h4 e1, xWrite_shape h5 e2⟩

omit A in
theorem twins_mvm {w v : World K} {res vec mat : Vec Int} {m n : Int} {l : String} (T : Twins E w v) :
    Sim (Twins E) (exeMvm E res vec mat m n l w) (exeMvm E res vec mat m n l v) := by
  have hbig : tooBig v m n ↔ tooBig w m n := by
    unfold tooBig
    rw [T.cfg.eff.dims.1, T.cfg.eff.dims.2]
  obtain ⟨x, y, h1, h2, h3, h4, h5⟩ := T.xbars
  unfold exeMvm
  rw [h1, h2]
  by_cases hb : tooBig w m n
  · simp only [if_pos hb, if_pos (hbig.2 hb)]
    exact .ok T
  · simp only [if_neg hb, if_neg (mt hbig.1 hb)]
    rcases T.cfg.xMvm (res := res) (vec := vec) (mat := mat) (m := toSize m) (n := toSize n) (l := l) h4 h3 with
      ⟨e, e1, e2⟩ | ⟨x', y', r, e1, e2, e3⟩
    · rw [e1, e2]
      exact Sim.lift_error
    · rw [e1, e2]
      exact .ok ⟨T.cfg, x', y', rfl, rfl, e3, xMvm_shape h4 e1, xMvm_shape h5 e2⟩

omit A in
theorem twins_serve {w v : World K} {ops : List Op} (T : Twins E w v) :
    Sim (Twins E) (serve E w ops) (serve E v ops) :=
  Sim.serve (fun _ _ T _ _ _ => twins_write T) (fun _ _ T _ _ _ _ _ _ => twins_mvm T) T

end DAlike

end

end Acs
