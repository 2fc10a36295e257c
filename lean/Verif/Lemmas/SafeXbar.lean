import Verif.Lemmas.SafeAMvm

/-! # Safety pass over the read-disturb model and the crossbar; reachable crossbars -/

set_option linter.unusedSectionVars false

namespace Acs

section
variable {K : Type} [Field K] [LinearOrder K] [IsStrictOrderedRing K] [FloorRing K]
variable {F : Fault → Prop} {E : Env K} {cfg : Cfg K} {c : Core K} {a : Aux K} {gd : Gd}
variable {mat vec res v w : Vec Int} {m n : Nat} {l : String} {rd : Rd K} {x : Xbar K}

theorem sat_rdFactor (hF : Lax F) (r k : Nat) : Sat F (rdFactor E cfg rd r k) fun _ => True := by
  unfold rdFactor
  dsimp only
  exact Sat.ite (fun _ => trivial) fun _ => Sat.ite (fun _ => Sat.ite
    (fun _ => Sat.err (hF _ (by decide) (by decide))) fun _ => trivial)
    fun _ => Sat.bind (Sat.fdiv hF _ _ _) fun _ _ => trivial

theorem sat_updateCycles (h : RdShape cfg rd) {up um : Mat Bool} (hp : up.Is cfg.R cfg.N)
    (hm : um.Is cfg.R cfg.N) : Sat F (updateCycles rd up um) (RdShape cfg) := by
  unfold updateCycles
  rw [h.cycP.1, h.cycP.2]
  refine Sat.bind (Sat.updMIs h.cycP (fun _ => ⟨le_refl _, le_refl _⟩) fun i j k hi hj => ?_)
    fun p hp' => ?_
  · exact Sat.bind (Sat.mrdIs hp fun _ => ⟨hi, hj⟩) fun _ _ => trivial
  refine Sat.bind (Sat.updMIs h.cycM (fun _ => ⟨le_refl _, le_refl _⟩) fun i j k hi hj => ?_)
    fun q hq' => ?_
  · exact Sat.bind (Sat.mrdIs hm fun _ => ⟨hi, hj⟩) fun _ _ => trivial
  exact ⟨hp', hq', h.rdP, h.rdM⟩

theorem sat_updateReads (h : RdShape cfg rd) (hd : Fits F cfg m n) :
    Sat F (updateReads cfg rd m n) (RdShape cfg) := by
  unfold updateReads
  have hb : ¬F .oob → m * cfg.S ≤ cfg.R ∧ n ≤ cfg.N := fun hn => by have := hd hn; omega
  refine Sat.bind (Sat.updMIs h.rdP hb fun i j k hi hj => trivial) fun p hp' => ?_
  refine Sat.bind (Sat.updMIs h.rdM hb fun i j k hi hj => trivial) fun q hq' => ?_
  exact ⟨h.cycP, h.cycM, hp', hq'⟩

theorem sat_resetReads (h : RdShape cfg rd) :
    Sat F (resetReads cfg rd) (RdShape cfg) := by
  unfold resetReads
  refine Sat.bind (Sat.updMIs h.rdP (fun _ => ⟨le_refl _, le_refl _⟩) fun i j k hi hj => trivial)
    fun p hp' => ?_
  refine Sat.bind (Sat.updMIs h.rdM (fun _ => ⟨le_refl _, le_refl _⟩) fun i j k hi hj => trivial)
    fun q hq' => ?_
  exact ⟨h.cycP, h.cycM, hp', hq'⟩

theorem sat_rdUpdMat (hF : Lax F) {reads : Nat → Nat → C Nat} {cyc : Mat Nat} {g : Mat Int}
    {A : Mat K} {o : Bool} (hr : ∀ i j, i < cfg.R → j < cfg.N → Sat F (reads i j) fun _ => True)
    (hc : cyc.Is cfg.R cfg.N) (hg : g.Is cfg.R cfg.N) (hA : A.Is cfg.R cfg.N) :
    Sat F (rdUpdMat E cfg rd reads cyc g A o) fun r => r.1.Is cfg.R cfg.N := by
  unfold rdUpdMat
  rw [hc.1, hc.2]
  refine Sat.loop2 (I := fun r : Mat K × Bool => r.1.Is cfg.R cfg.N) hA fun i j hi hj st hst => ?_
  refine Sat.bind (Sat.mrdIs hg fun _ => ⟨hi, hj⟩) fun _ _ => Sat.ite (fun _ => ?_) fun _ => hst
  refine Sat.bind (hr i j hi hj) fun _ _ => Sat.bind (Sat.mrdIs hc fun _ => ⟨hi, hj⟩) fun _ _ =>
    Sat.bind (sat_rdFactor hF _ _) fun _ _ => Sat.bind (Sat.mwrIs hst fun _ => ⟨hi, hj⟩) fun _ hA => ?_
  exact hA

theorem CoreShape.ia' {c : Core K} (h : CoreShape E cfg c) {ia : Ia K} (hi : IaShape cfg ia) :
    CoreShape E cfg { c with ia := ia } := by
  obtain ⟨c0, h1, h2⟩ := h.fixed
  exact ⟨⟨c0, h1, ⟨h2.1, h2.2, h2.3, h2.4, h2.5, h2.6, h2.7, h2.8⟩⟩, h.gd, hi, h.par⟩

theorem CoreShape.gd' {c : Core K} (h : CoreShape E cfg c) {g : Gd} (hi : GdShape cfg g) :
    CoreShape E cfg { c with gd := g } := by
  obtain ⟨c0, h1, h2⟩ := h.fixed
  exact ⟨⟨c0, h1, ⟨h2.1, h2.2, h2.3, h2.4, h2.5, h2.6, h2.7, h2.8⟩⟩, hi, h.ia, h.par⟩

theorem sat_rdUpdate (hF : Lax F) (hc : CoreShape E cfg c) (h : RdShape cfg rd)
    {rp rm : Nat → Nat → C Nat}
    (hp : ∀ i j, i < cfg.R → j < cfg.N → Sat F (rp i j) fun _ => True)
    (hm : ∀ i j, i < cfg.R → j < cfg.N → Sat F (rm i j) fun _ => True) :
    Sat F (rdUpdate E cfg c rd rp rm) fun r => CoreShape E cfg r.1 ∧ RdShape cfg r.2 ∧
      r.1.par = c.par := by
  unfold rdUpdate
  refine Sat.bind (sat_rdUpdMat hF hp h.cycP hc.gd.p hc.ia.p) fun p hp => ?_
  refine Sat.ite (fun _ => ?_) fun _ => ?_
  · refine Sat.bind (sat_rdUpdMat hF hm h.cycM hc.gd.m hc.ia.m) fun q hq => ?_
    exact ⟨hc.ia' ⟨hp, hq, hc.ia.pO, hc.ia.mO⟩, ⟨h.cycP, h.cycM, h.rdP, h.rdM⟩, rfl⟩
  · exact ⟨hc.ia' ⟨hp, hc.ia.m, hc.ia.pO, hc.ia.mO⟩, ⟨h.cycP, h.cycM, h.rdP, h.rdM⟩, rfl⟩

theorem sat_rdRefMat (hF : Lax F) {g : Mat Int} {st : RefSt K} (hg : g.Is cfg.R cfg.N)
    (hA : st.A.Is cfg.R cfg.N) (hc : st.cyc.Is cfg.R cfg.N) (hr : st.rds.Is cfg.R cfg.N) :
    Sat F (rdRefMat E cfg g st) fun st => st.A.Is cfg.R cfg.N ∧ st.cyc.Is cfg.R cfg.N ∧
      st.rds.Is cfg.R cfg.N := by
  unfold rdRefMat
  rw [hA.1]
  refine Sat.loop (I := fun st : RefSt K => st.A.Is cfg.R cfg.N ∧ st.cyc.Is cfg.R cfg.N ∧
      st.rds.Is cfg.R cfg.N) ⟨hA, hc, hr⟩ fun i hi st hst => ?_
  rw [hst.1.2]
  refine Sat.loop (I := fun st : RefSt K => st.A.Is cfg.R cfg.N ∧ st.cyc.Is cfg.R cfg.N ∧
      st.rds.Is cfg.R cfg.N) hst fun j hj st hst => ?_
  have hb : ¬F .oob → i < cfg.R ∧ j < cfg.N := fun _ => ⟨hi, hj⟩
  refine Sat.bind (Sat.mrdIs hg hb) fun _ _ => Sat.ite (fun _ => ?_) fun _ => hst
  refine Sat.bind (Sat.mrdIs hst.1 hb) fun _ _ => Sat.ite (fun _ => ?_) fun _ => hst
  refine Sat.bind (Sat.addNoise hF _ _ _ _ _) fun _ _ => Sat.bind (Sat.mwrIs hst.1 hb) fun A hA =>
    Sat.bind (Sat.mrdIs hst.2.1 hb) fun _ _ => Sat.bind (Sat.mwrIs hst.2.1 hb) fun q hq =>
    Sat.bind (Sat.mwrIs hst.2.2 hb) fun r hr => Sat.bind (Sat.addI hF _ _) fun _ _ => ?_
  exact ⟨hA, hq, hr⟩

theorem sat_rdCellRefresh (hF : Lax F) {mp : Mapper K} (hc : CoreShape E cfg mp.core)
    (h : RdShape cfg rd) : Sat F (rdCellRefresh E cfg mp rd) fun r =>
      CoreShape E cfg r.1.core ∧ RdShape cfg r.2.1 ∧ r.1.aux = { mp.aux with rng := r.1.aux.rng } ∧
      r.1.core.par = mp.core.par := by
  unfold rdCellRefresh
  dsimp only
  refine Sat.bind (sat_rdRefMat hF hc.gd.p hc.ia.p h.cycP h.rdP) fun p hp => ?_
  refine Sat.ite (fun _ => ?_) fun _ => ?_
  · refine Sat.bind (sat_rdRefMat hF hc.gd.m hc.ia.m h.cycM h.rdM) fun q hq => ?_
    exact ⟨hc.ia' ⟨hp.1, hq.1, hc.ia.pO, hc.ia.mO⟩, ⟨hp.2.1, hq.2.1, hp.2.2, hq.2.2⟩, rfl, rfl⟩
  · exact ⟨hc.ia' ⟨hp.1, hc.ia.m, hc.ia.pO, hc.ia.mO⟩, ⟨hp.2.1, h.cycM, hp.2.2, h.rdM⟩, rfl, rfl⟩

theorem AuxShape.rng (h : AuxShape cfg a) (k : Nat) : AuxShape cfg { a with rng := k } :=
  ⟨h.vdP, h.vdM, h.vdSlice, h.tmpInt, h.tmpFp, h.tmp, h.tmpP, h.tmpM, h.tmpLsb, h.tmpMsb, h.resFp⟩

theorem sat_resetMat {p q : Mat Int} (hp : p.Is cfg.R cfg.N) (hq : q.Is cfg.R cfg.N) :
    Sat F (resetMat cfg p q) fun b => b.Is cfg.R cfg.N := by
  unfold resetMat
  refine Sat.updMIs (Mat.const_is _ _ _) (fun _ => ⟨le_refl _, le_refl _⟩) fun i j k hi hj => ?_
  refine Sat.bind (Sat.mrdIs hp fun _ => ⟨hi, hj⟩) fun _ _ => Sat.ite (fun _ => ?_) fun _ => trivial
  exact Sat.bind (Sat.mrdIs hq fun _ => ⟨hi, hj⟩) fun _ _ => Sat.ite (fun _ => trivial) fun _ => trivial

theorem sat_dWrite (hF : Lax F) {mp : Mapper K} (hc : CoreShape E cfg mp.core)
    (hd : Fits F cfg m n) (hm : ¬F .oob → m * n ≤ mat.size) :
    Sat F (dWrite E cfg mp mat m n) fun r => CoreShape E cfg r.core ∧ r.aux = mp.aux ∧
      r.core.par = mp.core.par := by
  unfold dWrite
  exact Sat.bind (sat_dWriteGd hF hc hd hm) fun g hg => ⟨hc.gd' hg, rfl, rfl⟩

theorem sat_xWriteD (hF : Lax F) (h : Shape E cfg x) (hd : Fits F cfg m n)
    (hm : ¬F .oob → m * n ≤ mat.size) :
    Sat F (xWriteD E cfg x mat m n) fun r => CoreShape E cfg r.1.core ∧ r.1.aux = x.mapper.aux ∧
      r.1.core.par = x.mapper.core.par ∧
      (cfg.readDisturb = true → ∃ rd, r.2 = some rd ∧ RdShape cfg rd) := by
  unfold xWriteD
  refine Sat.ite (fun hr => ?_) fun hr => ?_
  · refine Sat.bind (sat_dWrite hF h.core hd hm) fun mp hmp => ?_
    refine Sat.bind (sat_resetMat h.core.gd.p hmp.1.gd.p) fun up hup => ?_
    refine Sat.bind (sat_resetMat h.core.gd.m hmp.1.gd.m) fun um hum => ?_
    obtain ⟨rd, hrd, hrs⟩ := h.rd hr
    rw [hrd]
    refine Sat.bind (sat_updateCycles hrs hup hum) fun rd hrd => ?_
    refine Sat.bind (P := RdShape cfg) (Sat.ite (fun _ => sat_resetReads hrd) fun _ => hrd)
      fun rd hrd => ?_
    exact ⟨hmp.1, hmp.2.1, hmp.2.2, fun _ => ⟨rd, rfl, hrd⟩⟩
  · refine Sat.bind (sat_dWrite hF h.core hd hm) fun mp hmp => ?_
    exact ⟨hmp.1, hmp.2.1, hmp.2.2, fun hr' => absurd hr' hr⟩

/-- Safety of `Crossbar::write`. -/
theorem sat_xWrite (hF : Lax F) (h : Shape E cfg x) (hd : Fits F cfg m n)
    (hm : ¬F .oob → m * n ≤ mat.size)
    (hp : ¬F .oob → cfg.digitalOnly = false → cfg.parasitics = true →
      0 < cfg.N ∧ n * Spec.lines cfg.mode ≤ cfg.N ∧ 1 ≤ cfg.S) :
    Sat F (xWrite E cfg x mat m n) (Shape E cfg) := by
  unfold xWrite
  refine Sat.bind (sat_xWriteD hF h hd hm) fun r hr => ?_
  refine Sat.bind (P := fun mp => CoreShape E cfg mp.core ∧ AuxShape cfg mp.aux ∧
      (x.mapper.core.par ≠ none → mp.core.par ≠ none))
    (Sat.ite (fun _ => ?_) fun hdo => ?_) fun mp hmp => ?_
  · exact ⟨hr.1, by rw [hr.2.1]; exact h.aux, fun hn => by rw [hr.2.2.1]; exact hn⟩
  · rw [Bool.not_eq_true] at hdo
    refine (sat_aWrite hF hr.1 hd ⟨fun hn => hp hn hdo, fun _ hq => by rw [hr.2.2.1]; exact h.parEx hdo hq⟩).mono
      fun mp hmp => ⟨hmp.1, ?_, fun hn => hmp.2.2.2 (by rw [hr.2.2.1]; exact hn)⟩
    rw [hmp.2.2.1, hr.2.1]
    exact h.aux.rng _
  · exact ⟨hmp.1, hmp.2.1, hr.2.2.2, fun a b => hmp.2.2 (h.parEx a b)⟩

theorem sat_lrsMat {g : Mat Int} (hg : g.Is cfg.R cfg.N) (k : Nat) :
    Sat F (lrsMat cfg g k) fun r => r.1.Is cfg.R cfg.N := by
  unfold lrsMat
  refine Sat.loop2 (I := fun r : Mat Bool × Nat => r.1.Is cfg.R cfg.N) (Mat.const_is _ _ _)
    fun i j hi hj st hst => ?_
  refine Sat.bind (Sat.mrdIs hg fun _ => ⟨hi, hj⟩) fun _ _ => Sat.ite (fun _ => ?_) fun _ => hst
  exact Sat.bind (Sat.mwrIs hst fun _ => ⟨hi, hj⟩) fun _ hb => hb

theorem sat_softwareRefresh (hF : Lax F) (h : Shape E cfg x) (hrd : RdShape cfg rd)
    (hS : ¬F .oob → 1 ≤ cfg.S) (hp : ParOk F cfg x.mapper.core.par cfg.N) :
    Sat F (softwareRefresh E cfg x rd) (Shape E cfg) := by
  unfold softwareRefresh
  dsimp only
  refine Sat.bind (sat_lrsMat h.core.gd.p _) fun p hp' => ?_
  refine Sat.bind (P := fun r : Mat Bool × Nat => r.1.Is cfg.R cfg.N)
    (Sat.ite (fun _ => sat_lrsMat h.core.gd.m _) fun _ => Sat.ok (Mat.const_is _ _ _)) fun q hq => ?_
  refine Sat.bind (sat_updateCycles hrd hp' hq) fun rd hrd => ?_
  refine Sat.bind (sat_aWrite hF h.core (Fits.mk' fun hn => ⟨le_refl _, le_refl _, hS hn⟩) hp)
    fun mp hmp => ?_
  refine ⟨hmp.1, ?_, fun _ => ⟨rd, rfl, hrd⟩, fun a b => hmp.2.2.2 (h.parEx a b)⟩
  show AuxShape cfg mp.aux
  rw [hmp.2.2.1]
  exact h.aux.rng _

theorem sat_rdStep (hF : Lax F) (h : Shape E cfg x) (hr : cfg.readDisturb = true)
    (hd : Fits F cfg m n) (hS : ¬F .oob → 1 ≤ cfg.S)
    (hp : cfg.strategy = .software → ParOk F cfg x.mapper.core.par cfg.N) :
    Sat F (rdStep E cfg x m n) (Shape E cfg) := by
  obtain ⟨rd, hrd, hrs⟩ := h.rd hr
  have hz : F .modZero := hF _ (by decide) (by decide)
  unfold rdStep
  rw [hrd]
  split
  · refine Sat.ite (fun _ => Sat.err hz) fun _ => Sat.ite (fun _ => ?_) fun _ => h
    refine Sat.bind (sat_rdUpdate hF h.core hrs (fun _ _ _ _ => trivial) fun _ _ _ _ => trivial)
      fun r hr' => ?_
    exact ⟨hr'.1, h.aux, fun _ => ⟨_, rfl, hr'.2.1⟩,
      fun a b => by show r.1.par ≠ none; rw [hr'.2.2]; exact h.parEx a b⟩
  · next hst =>
    refine Sat.ite (fun _ => Sat.err hz) fun _ => Sat.ite (fun _ => ?_) fun _ => h
    refine Sat.bind (sat_rdUpdate hF h.core hrs (fun _ _ _ _ => trivial) fun _ _ _ _ => trivial)
      fun r hr' => ?_
    dsimp only
    have hrs' : RdShape cfg { r.2 with oob := r.2.oob || rdOob E (x.writes + x.refX) } :=
      ⟨hr'.2.1.cycP, hr'.2.1.cycM, hr'.2.1.rdP, hr'.2.1.rdM⟩
    have hpe : cfg.digitalOnly = false → cfg.parasitics = true → r.1.par ≠ none :=
      fun a b => by rw [hr'.2.2]; exact h.parEx a b
    refine Sat.ite (fun _ => sat_softwareRefresh hF ⟨hr'.1, h.aux, fun _ => ⟨_, rfl, hrs'⟩, hpe⟩ hrs' hS
      ⟨(hp hst).oob, fun a b => by show r.1.par ≠ none; rw [hr'.2.2]; exact (hp hst).null a b⟩) fun _ => ?_
    exact ⟨hr'.1, h.aux, fun _ => ⟨_, rfl, hrs'⟩, hpe⟩
  · refine Sat.bind (sat_updateReads hrs hd) fun rd' hrs' => ?_
    refine Sat.ite (fun _ => Sat.err hz) fun _ => Sat.ite (fun _ => ?_) fun _ => ?_
    · refine Sat.bind (sat_rdUpdate hF h.core hrs'
        (fun i j hi hj => (Sat.mrdIs hrs'.rdP fun _ => ⟨hi, hj⟩).true)
        fun i j hi hj => (Sat.mrdIs hrs'.rdM fun _ => ⟨hi, hj⟩).true) fun r hr' => ?_
      refine Sat.bind (sat_rdCellRefresh hF (mp := { x.mapper with core := r.1 }) hr'.1 hr'.2.1)
        fun s hs => ?_
      refine ⟨hs.1, ?_, fun _ => ⟨_, rfl, hs.2.1⟩,
        fun a b => by show s.1.core.par ≠ none; rw [hs.2.2.2]; show r.1.par ≠ none; rw [hr'.2.2]; exact h.parEx a b⟩
      show AuxShape cfg s.1.aux
      rw [hs.2.2.1]
      exact h.aux.rng _
    · exact ⟨h.core, h.aux, fun _ => ⟨_, rfl, hrs'⟩, h.parEx⟩

/-- Safety of `Crossbar::mvm`. -/
theorem sat_xMvm (hF : Lax F) (h : Shape E cfg x) (hd : ¬F .oob → m ≤ cfg.M ∧ n ≤ cfg.N ∧ 1 ≤ cfg.S)
    (hres : ¬F .oob → m ≤ res.size) (hvec : ¬F .oob → n ≤ vec.size)
    (hp : ¬F .oob → cfg.digitalOnly = false → cfg.adcProfile = false ∧ (cfg.parasitics = true →
      n * Spec.lines cfg.mode ≤ cfg.N ∧ Spec.taps cfg m ≤ cfg.M ∧ Wired cfg x.mapper.core.par m ∧
      (cfg.readDisturb = true → cfg.strategy = .software → 0 < cfg.N ∧ Spec.lines cfg.mode = 1))) :
    Sat F (xMvm E cfg x res vec mat m n l) fun r => Shape E cfg r.1 ∧ Keep m res r.2 := by
  unfold xMvm
  dsimp only
  refine Sat.ite (fun _ => ?_) fun hdo => ?_
  · refine Sat.bind (sat_dMvm ⟨hF, h.core, h.aux, Fits.mk' hd, hres, hvec⟩) fun r hr => ?_
    exact ⟨⟨h.core, hr.1, h.rd, h.parEx⟩, hr.2⟩
  · rw [Bool.not_eq_true] at hdo
    have hpar : ∀ {c : Core K}, c.par = x.mapper.core.par → SolveOk F cfg c.par m n := fun e =>
      ⟨fun hn hq => (by
        obtain ⟨h1, h2, h3, _⟩ := (hp hn hdo).2 hq
        exact ⟨(hd hn).2.2, h1, h2, by rw [e]; exact h3⟩),
        fun _ hq => by rw [e]; exact h.parEx hdo hq⟩
    refine Sat.bind (P := fun mp => CoreShape E cfg mp.core ∧ AuxShape cfg mp.aux ∧
        mp.core.par = x.mapper.core.par)
      (Sat.ite (fun _ => ?_) fun _ => ⟨h.core, h.aux, rfl⟩) fun mp hmp => ?_
    · refine (sat_addC2C hF h.core (Fits.mk' hd)).mono fun mp hmp => ⟨hmp.1, ?_, hmp.2.2.2⟩
      rw [hmp.2.2.1]; exact h.aux.rng _
    refine Sat.bind (sat_aMvm ⟨⟨hF, hmp.1, hmp.2.1, Fits.mk' hd, hres, hvec⟩, hpar hmp.2.2,
      fun hn => (hp hn hdo).1⟩) fun r hr => ?_
    refine Sat.bind (P := fun mp => CoreShape E cfg mp.core ∧ AuxShape cfg mp.aux ∧
        mp.core.par = x.mapper.core.par)
      (Sat.ite (fun _ => ?_) fun _ => ⟨hmp.1, hr.1, hmp.2.2⟩) fun mp' hmp' => ?_
    · refine (sat_removeC2C (mp := { mp with aux := r.1 }) hmp.1 (Fits.mk' hd)).mono
        fun mp' hmp' => ⟨hmp'.1, ?_, hmp'.2.2.2.trans hmp.2.2⟩
      rw [hmp'.2.2.1]; exact hr.1
    have hpe : cfg.digitalOnly = false → cfg.parasitics = true → mp'.core.par ≠ none :=
      fun a b => by rw [hmp'.2.2]; exact h.parEx a b
    refine Sat.bind (P := Shape E cfg) (Sat.ite (fun hrd => ?_) fun _ => ?_) fun x hx => ⟨hx, hr.2⟩
    · exact sat_rdStep hF ⟨hmp'.1, hmp'.2.1, h.rd, hpe⟩ hrd (Fits.mk' hd) (fun hn => (hd hn).2.2)
        fun hst => ⟨fun hn hq => (by
          obtain ⟨h1, h2⟩ := ((hp hn hdo).2 hq).2.2.2 hrd hst
          exact ⟨h1, by rw [h2]; omega, (hd hn).2.2⟩),
          fun _ hq => by show mp'.core.par ≠ none; rw [hmp'.2.2]; exact h.parEx hdo hq⟩
    · exact ⟨hmp'.1, hmp'.2.1, h.rd, hpe⟩

theorem lax_true : Lax (fun _ => True) := fun _ _ _ => trivial

theorem xWrite_shape (h : Shape E cfg x) {x' : Xbar K} (hx : xWrite E cfg x mat m n = .ok x') :
    Shape E cfg x' :=
  (sat_xWrite lax_true h (fun hn => absurd trivial hn) (fun hn => absurd trivial hn)
    (fun hn => absurd trivial hn)).of_ok hx

theorem xMvm_shape (h : Shape E cfg x) {r : Xbar K × Vec Int}
    (hx : xMvm E cfg x res vec mat m n l = .ok r) : Shape E cfg r.1 :=
  ((sat_xMvm lax_true h (fun hn => absurd trivial hn) (fun hn => absurd trivial hn)
    (fun hn => absurd trivial hn) (fun hn => absurd trivial hn)).of_ok hx).1

end

end Acs
