import Verif.Lemmas.NearRd
import Verif.Lemmas.AdcDev
import Verif.SpecRdTotal

/-! # Read disturb returns -/

set_option linter.unusedSectionVars false

namespace Acs

open Finset Spec

theorem Sat.total {α : Type} {x : C α} {Q : α → Prop} (h : Sat (fun _ => False) x Q) : ∃ a, x = .ok a ∧ Q a := by
  rcases h.elim with h | ⟨_, _, h⟩
  · exact h
  · exact h.elim

section
variable {K : Type} [Field K] [LinearOrder K] [IsStrictOrderedRing K] [FloorRing K]
variable {E : Env K} {cfg : Cfg K} {h : List Op} {x x' : Xbar K} {rd : Rd K} {c : Core K} {t : List (Step K)}
variable {res vec mat : Vec Int} {m n w : Nat} {ε : K} {l : String} {F : Fault → Prop}

/-! ## The formula -/

theorem rdFactor_total (hE : ExactArith E) (hp : Params E cfg rd) {r k : Nat}
    (hd : transition E cfg.vRead k ≠ 0 ∨ (r : K) * cfg.tRead ≠ 0) : ∃ f, rdFactor E cfg rd r k = .ok f := by
  obtain ⟨rd0, h0, e1, e2⟩ := hp
  obtain ⟨d1, d2, _⟩ := mkRd_exact hE h0
  exact ⟨_, rdFactor_exact hE (e2.trans d1) (e1.trans d2) r k fun h => hd.elim (fun h' => h' h.1) fun h' => h' h.2⟩

theorem transition_anti (hA : RdArith E) (hE : ExactArith E) (hp : Params E cfg rd) {a b : Nat} (h : a ≤ b) :
    transition E cfg.vRead b ≤ transition E cfg.vRead a := by
  obtain ⟨rd0, h0, e1, e2⟩ := hp
  obtain ⟨p1, p2⟩ := mkRd_nonneg hA h0
  have d2 := (mkRd_exact hE h0).2.1
  have := rdTime_anti (rd := rd) hA (by rw [e1]; exact p2) h
  rwa [rdTime_exact hE (e1.trans d2), rdTime_exact hE (e1.trans d2)] at this

/-! ## Updates -/

/-- Where the formula has to be defined. -/
def Defined (E : Env K) (cfg : Cfg K) (rd : Rd K) (reads : Nat → Nat → C Nat) (cyc : Mat Nat) (g : Mat Int) : Prop :=
  ∀ i j, i < cfg.R → j < cfg.N → g.get i j = 1 → ∃ r f, reads i j = .ok r ∧ rdFactor E cfg rd r (cyc.get i j) = .ok f

theorem rdUpdMat_sat {reads : Nat → Nat → C Nat} {cyc : Mat Nat} {g : Mat Int} {A : Mat K} {o : Bool}
    (hf : Defined E cfg rd reads cyc g)
    (hc : cyc.Is cfg.R cfg.N) (hg : g.Is cfg.R cfg.N) (hA : A.Is cfg.R cfg.N) :
    Sat F (rdUpdMat E cfg rd reads cyc g A o) fun r => r.1.Is cfg.R cfg.N := by
  unfold rdUpdMat
  rw [hc.1, hc.2]
  refine Sat.loop2 (I := fun r : Mat K × Bool => r.1.Is cfg.R cfg.N) hA fun i j hi hj st hst => ?_
  refine Sat.bind (Sat.mrd fun _ => ⟨by rw [hg.1]; exact hi, by rw [hg.2]; exact hj⟩) fun a ha =>
    Sat.ite (fun h1 => ?_) fun _ => hst
  obtain ⟨r, f, h2, h3⟩ := hf i j hi hj (ha ▸ h1)
  rw [h2, ok_bind]
  refine Sat.bind (Sat.mrd fun _ => ⟨by rw [hc.1]; exact hi, by rw [hc.2]; exact hj⟩) fun b hb => ?_
  rw [hb, h3, ok_bind]
  exact Sat.bind (Sat.mwrIs hst fun _ => ⟨hi, hj⟩) fun _ hA => hA

theorem rdUpdate_sat {rp rm : Nat → Nat → C Nat} (hc : CoreShape E cfg c) (h : RdShape cfg rd)
    (hp : Defined E cfg rd rp rd.cycP c.gd.p) (hm : c.isDiff = true → Defined E cfg rd rm rd.cycM c.gd.m) :
    Sat F (rdUpdate E cfg c rd rp rm) fun r => (∃ ia, IaShape cfg ia ∧ r.1 = { c with ia := ia }) ∧ RdShape cfg r.2 ∧
      r.2.cycP = rd.cycP ∧ r.2.cycM = rd.cycM := by
  unfold rdUpdate
  refine Sat.bind (rdUpdMat_sat hp h.cycP hc.gd.p hc.ia.p) fun p hp => ?_
  refine Sat.ite (fun hd => ?_) fun _ => ?_
  · refine Sat.bind (rdUpdMat_sat (hm hd) h.cycM hc.gd.m hc.ia.m) fun q hq => ?_
    exact ⟨⟨{ c.ia with p := p.1, m := q.1 }, ⟨hp, hq, hc.ia.pO, hc.ia.mO⟩, rfl⟩, ⟨h.cycP, h.cycM, h.rdP, h.rdM⟩, rfl, rfl⟩
  · exact ⟨⟨{ c.ia with p := p.1 }, ⟨hp, hc.ia.m, hc.ia.pO, hc.ia.mO⟩, rfl⟩, ⟨h.cycP, h.cycM, h.rdP, h.rdM⟩, rfl, rfl⟩

/-! ## Refreshes -/

theorem rdRefMat_sat {g : Mat Int} {st : RefSt K} (hg : g.Is cfg.R cfg.N) (hA : st.A.Is cfg.R cfg.N)
    (hc : st.cyc.Is cfg.R cfg.N) (hr : st.rds.Is cfg.R cfg.N) (h0 : 0 ≤ st.cnt)
    (hn : st.cnt + (cfg.R * cfg.N : Nat) ≤ 2147483647) :
    Sat F (rdRefMat E cfg g st) fun s => s.A.Is cfg.R cfg.N ∧ s.cyc.Is cfg.R cfg.N ∧ s.rds.Is cfg.R cfg.N ∧ 0 ≤ s.cnt ∧
      s.cnt ≤ st.cnt + (cfg.R * cfg.N : Nat) := by
  unfold rdRefMat
  rw [hA.1]
  refine Sat.loopI (P := fun i (s : RefSt K) => s.A.Is cfg.R cfg.N ∧ s.cyc.Is cfg.R cfg.N ∧ s.rds.Is cfg.R cfg.N ∧ 0 ≤ s.cnt ∧
      s.cnt ≤ st.cnt + (i * cfg.N : Nat)) ⟨hA, hc, hr, h0, by simp⟩ fun i hi s hs => ?_
  rw [hs.1.2]
  have hle : (i + 1) * cfg.N ≤ cfg.R * cfg.N := Nat.mul_le_mul_right _ hi
  have hmul : (i + 1) * cfg.N = i * cfg.N + cfg.N := Nat.succ_mul _ _
  have := Sat.loopI (F := F) (n := cfg.N) (s := s)
    (f := fun j (st : RefSt K) => (do
      let g ← g.rd i j
      if g = 1 then do
        let x ← st.A.rd i j
        if rdOutside E cfg x then do
          let y ← addNoise E cfg st.rng cfg.lrs 1
          let A ← st.A.wr i j y.1
          let c ← st.cyc.rd i j
          let cyc ← st.cyc.wr i j (c + 1)
          let rds ← st.rds.wr i j 0
          let cnt ← addI st.cnt 1
          .ok ⟨A, cyc, rds, y.2, cnt⟩
        else .ok st
      else .ok st : C (RefSt K)))
    (P := fun j (s : RefSt K) => s.A.Is cfg.R cfg.N ∧ s.cyc.Is cfg.R cfg.N ∧ s.rds.Is cfg.R cfg.N ∧ 0 ≤ s.cnt ∧
      s.cnt ≤ st.cnt + (i * cfg.N + j : Nat)) ⟨hs.1, hs.2.1, hs.2.2.1, hs.2.2.2.1, by simpa using hs.2.2.2.2⟩
    (fun j hj s hs => by
      obtain ⟨a1, a2, a3, a4, a5⟩ := hs
      have stay : s.A.Is cfg.R cfg.N ∧ s.cyc.Is cfg.R cfg.N ∧ s.rds.Is cfg.R cfg.N ∧ 0 ≤ s.cnt ∧
        s.cnt ≤ st.cnt + (i * cfg.N + (j + 1) : Nat) := ⟨a1, a2, a3, a4, by omega⟩
      have hb : ¬F .oob → i < cfg.R ∧ j < cfg.N := fun _ => ⟨hi, hj⟩
      refine Sat.bind (Sat.mrdIs hg hb) fun _ _ => Sat.ite (fun _ => ?_) fun _ => stay
      refine Sat.bind (Sat.mrdIs a1 hb) fun _ _ => Sat.ite (fun _ => ?_) fun _ => stay
      refine Sat.bind (sat_addNoise fun _ => Or.inr rfl) fun _ _ => Sat.bind (Sat.mwrIs a1 hb) fun A hA => ?_
      refine Sat.bind (Sat.mrdIs a2 hb) fun _ _ => Sat.bind (Sat.mwrIs a2 hb) fun _ h2 => ?_
      refine Sat.bind (Sat.mwrIs a3 hb) fun _ h3 => ?_
      have hi32 : addI s.cnt 1 = .ok (s.cnt + 1) := addI_eq_ok.2 ⟨⟨by omega, by omega⟩, rfl⟩
      rw [hi32, ok_bind]
      exact ⟨hA, h2, h3, by show 0 ≤ s.cnt + 1; omega, by show s.cnt + 1 ≤ _; omega⟩)
  refine this.mono fun s hs => ?_
  rw [hmul]
  exact hs

theorem rdCellRefresh_sat {mp : Mapper K} (hc : CoreShape E cfg mp.core) (h : RdShape cfg rd)
    (hn : cellCount cfg ≤ 2147483647) (hd : mp.core.isDiff = cfg.mode.isDiff) :
    Sat F (rdCellRefresh E cfg mp rd) fun _ => True := by
  unfold cellCount at hn
  unfold rdCellRefresh
  dsimp only
  rw [hd]
  cases hdf : cfg.mode.isDiff
  · rw [hdf, if_neg (by decide), one_mul] at hn
    refine Sat.bind (rdRefMat_sat hc.gd.p hc.ia.p h.cycP h.rdP (le_refl _) (by
      show (0 : Int) + _ ≤ _
      omega)) fun p hp => ?_
    exact Sat.ok trivial
  · rw [hdf, if_pos rfl] at hn
    refine Sat.bind (rdRefMat_sat hc.gd.p hc.ia.p h.cycP h.rdP (le_refl _) (by
      show (0 : Int) + _ ≤ _
      omega)) fun p hp => ?_
    have h5 : p.cnt ≤ 0 + (cfg.R * cfg.N : Nat) := hp.2.2.2.2
    refine Sat.bind (rdRefMat_sat hc.gd.m hc.ia.m h.cycM h.rdM hp.2.2.2.1 (by
      show p.cnt + _ ≤ _
      omega)) fun q _ => ?_
    exact Sat.ok trivial

theorem softwareRefresh_sat (hok : CfgOk cfg) (hpar : cfg.parasitics = false) (hi : cfg.mode.isInt = false)
    (hc : CoreShape E cfg x.mapper.core) (hrd : RdShape cfg rd)
    (hg : ∀ i j, i < cfg.M → j < cfg.N →
      (x.mapper.core.gd.p.get i j = 0 ∨ x.mapper.core.gd.p.get i j = 1) ∧
      (x.mapper.core.gd.m.get i j = 0 ∨ x.mapper.core.gd.m.get i j = 1)) :
    Sat F (softwareRefresh E cfg x rd) fun _ => True := by
  have hS := cfgOk_S_pos hok
  unfold softwareRefresh
  dsimp only
  refine Sat.bind (sat_lrsMat hc.gd.p _) fun p hp' => ?_
  refine Sat.bind (P := fun r : Mat Bool × Nat => r.1.Is cfg.R cfg.N)
    (Sat.ite (fun _ => sat_lrsMat hc.gd.m _) fun _ => Sat.ok (Mat.const_is _ _ _)) fun q hq => ?_
  refine Sat.bind (sat_updateCycles hrd hp' hq) fun rd _ => ?_
  have hns := hc.numSeg
  have hmd := hc.mode
  refine Sat.bind (cont_aWrite ⟨hc.gd.p, hc.gd.m, hc.ia, fun _ => ?_, fun _ => ?_, fun _ => le_refl _, fun _ => ?_⟩
    (fun h => by rw [hpar] at h; cases h) (fun _ h => by rw [hmd, hi] at h; cases h) fun _ _ i j h1 h2 => hg i j h1 h2)
    fun mp _ => Sat.ok trivial
  · unfold Cfg.R; exact Nat.le_mul_of_pos_right _ hS
  · rw [hns]
    split
    · exact le_refl _
    · rw [mul_zero]; exact Nat.zero_le _
  · rw [hns, hc.iStep_size]
    split <;> omega

/-! ## The step -/

/-- A cell in LRS that was read or has a transition time. -/
def Alive (E : Env K) (cfg : Cfg K) (g : Mat Int) (cyc : Mat Nat) (m n : Nat) : Prop :=
  ∀ r k, r < cfg.R → k < cfg.N → g.get r k = 1 → transition E cfg.vRead (cyc.get r k) ≠ 0 ∨ r < m * cfg.S ∧ k < n

theorem rdStep_total (hE : ExactArith E) (hok : CfgOk cfg) (hI : Binary cfg) (hD : DisturbOk cfg)
    (hc : CoreShape E cfg x.mapper.core) (hx : x.rd = some rd) (hs : RdShape cfg rd) (hp : Params E cfg rd)
    (hcs : x.consec ≠ 0)
    (hg : ∀ i j, i < cfg.M → j < cfg.N →
      (x.mapper.core.gd.p.get i j = 0 ∨ x.mapper.core.gd.p.get i j = 1) ∧
      (x.mapper.core.gd.m.get i j = 0 ∨ x.mapper.core.gd.m.get i j = 1)) (hd : Accepted cfg m n)
    (hcb : cfg.strategy = .cellBased →
      Alive E cfg x.mapper.core.gd.p rd.cycP m n ∧ Alive E cfg x.mapper.core.gd.m rd.cycM m n) :
    ∃ x', rdStep E cfg x m n = .ok x' := by
  have ht := hD.time.ne'
  have hcs' : (x.consec : K) * cfg.tRead ≠ 0 := mul_ne_zero (Nat.cast_ne_zero.2 hcs) ht
  have one : ∀ (cyc : Mat Nat) (g : Mat Int), Defined E cfg rd (fun _ _ => .ok x.consec) cyc g := fun cyc g i j _ _ _ => by
    obtain ⟨f, hf⟩ := rdFactor_total (k := cyc.get i j) hE hp (Or.inr hcs')
    exact ⟨_, f, rfl, hf⟩
  unfold rdStep
  rw [hx]
  cases hst : cfg.strategy <;> dsimp only
  · rw [if_neg hD.freq]
    split
    · obtain ⟨r, h1, _⟩ := (rdUpdate_sat (F := fun _ => False) hc hs (one _ _) fun _ => one _ _).total
      rw [h1, ok_bind]
      exact ⟨_, rfl⟩
    · exact ⟨_, rfl⟩
  · rw [if_neg hD.freq]
    split
    · obtain ⟨r, h1, ⟨ia, h2, h3⟩, h4, _⟩ :=
        (rdUpdate_sat (F := fun _ => False) hc hs (one _ _) fun _ => one _ _).total
      rw [h1, ok_bind]
      split
      · obtain ⟨y, h5, _⟩ := (softwareRefresh_sat (F := fun _ => False) (E := E) (cfg := cfg)
          (x := { x with
            mapper := { x.mapper with core := r.1 }
            rd := some { r.2 with oob := r.2.oob || rdOob E (x.writes + x.refX) } })
          (rd := { r.2 with oob := r.2.oob || rdOob E (x.writes + x.refX) }) hok hI.par hI.bin
          (by rw [h3]; exact hc.ia' h2) ⟨h4.cycP, h4.cycM, h4.rdP, h4.rdM⟩
          (by rw [h3]; exact hg)).total
        exact ⟨y, h5⟩
      · exact ⟨_, rfl⟩
    · exact ⟨_, rfl⟩
  · obtain ⟨a1, a2⟩ := hcb hst
    have hfit := Fits.row hok hd
    obtain ⟨rd', h1, h2⟩ := (sat_updateReads (F := fun _ => False) (m := m) (n := n) hs
      (fun _ => ⟨hd.1, hd.2.1, hfit.1, hfit.2⟩)).total
    rw [h1, ok_bind, if_neg hD.freq]
    split
    · obtain ⟨u1, u2, u3⟩ := updateReads_inv h1
      have hp' : Params E cfg rd' := by
        obtain ⟨rd0, e0, e1, e2⟩ := hp
        exact ⟨rd0, e0, by rw [u1]; exact e1, by rw [u1]; exact e2⟩
      have def' : ∀ {cyc : Mat Nat} {g : Mat Int} {R R' : Mat Nat}, Alive E cfg g cyc m n → R'.Is cfg.R cfg.N →
          (∀ r k, R'.get r k = R.get r k + if r < m * cfg.S ∧ k < n then 1 else 0) →
          Defined E cfg rd' R'.rd cyc g := by
        intro cyc g R R' ha hR e i j hi hj h1
        have hrd : R'.rd i j = .ok (R'.get i j) := by
          unfold Mat.rd
          rw [if_pos ⟨by rw [hR.1]; exact hi, by rw [hR.2]; exact hj⟩]
        obtain ⟨f, hf⟩ := rdFactor_total (r := R'.get i j) (k := cyc.get i j) hE hp'
          ((ha i j hi hj h1).imp_right fun h2 => by
            rw [e, if_pos h2]
            exact mul_ne_zero (Nat.cast_ne_zero.2 (Nat.succ_ne_zero _)) ht)
        exact ⟨_, f, hrd, hf⟩
      obtain ⟨r, k1, ⟨ia, k2, k3⟩, k4, _⟩ := (rdUpdate_sat (F := fun _ => False) (rp := rd'.rdP.rd) (rm := rd'.rdM.rd)
        hc h2 (def' (R := rd.rdP) (by rw [u1]; exact a1) h2.rdP u2)
        fun _ => def' (R := rd.rdM) (by rw [u1]; exact a2) h2.rdM u3).total
      rw [k1, ok_bind]
      obtain ⟨s, k5, _⟩ := (rdCellRefresh_sat (F := fun _ => False) (E := E) (mp := { x.mapper with core := r.1 })
        (rd := r.2) (by rw [k3]; exact hc.ia' k2) k4 (hD.count hst) (by rw [k3]; exact hc.isDiff)).total
      rw [k5, ok_bind]
      exact ⟨_, rfl⟩
    · exact ⟨_, rfl⟩

/-! ## Multiplications -/

theorem times_le {P : Step K → Prop} (hP : ∀ s, P s → isMvm s.op) (t : List (Step K)) : times P t ≤ mvmsIn (calls t) := by
  induction t with
  | nil => exact le_refl _
  | cons s t ih =>
    obtain ⟨op, a, b⟩ := s
    unfold times
    cases op with
    | write mat m n =>
      rw [if_neg fun h => hP ⟨.write mat m n, a, b⟩ h]
      exact ih
    | mvm =>
      show _ ≤ mvmsIn (calls t) + 1
      split <;> omega

/-- No cell was switched more often than there were calls. -/
theorem cycles_le_calls (hok : CfgOk cfg) (hrd : cfg.readDisturb = true) (hr : Runs E cfg h x) (hx : x.rd = some rd)
    {r k : Nat} (h1 : r < cfg.R) (h2 : k < cfg.N) :
    rd.cycP.get r k ≤ writesIn h + mvmsIn h ∧ rd.cycM.get r k ≤ writesIn h + mvmsIn h := by
  obtain ⟨t, rfl, ht⟩ := runs_traced hr
  obtain ⟨c1, c2⟩ := traced_cycles hok hrd ht hx h1 h2
  rw [c1, c2]
  exact ⟨Nat.add_le_add (switched_le _ _ _ _) (times_le (fun s ⟨_, _, hf⟩ => hf.2.1) t),
    Nat.add_le_add (switched_le _ _ _ _) (times_le (fun s ⟨_, _, _, hf⟩ => hf.2.1) t)⟩

theorem mvm_disturbed {G : Vec Int → Prop} (hA : RdArith E) (hE : ExactArith E) (hok : CfgOk cfg) (hI : Binary cfg)
    (hc2 : cfg.c2c = false) (hrd : cfg.readDisturb = true) (hD : DisturbOk cfg)
    (hsp : cfg.strategy = .cellBased → Spared E cfg h m n) (hr : Runs E cfg h x) (hh : HistOk cfg w h)
    (hd : Accepted cfg m n)
    (hm : ∃ a' r, aMvm E cfg x.mapper.core x.mapper.aux res vec m n l = .ok (a', r) ∧ G r) :
    ∃ x' r, xMvm E cfg x res vec mat m n l = .ok (x', r) ∧ G r := by
  obtain ⟨a', r, e, hG⟩ := hm
  have hsh := runs_shape hr
  obtain ⟨rd, hx, hs, hp⟩ := runs_params hrd hr
  have bin : ∀ {f : Int → Int}, (∀ w, LegalW cfg w → f w = 0 ∨ f w = 1) → ∀ i j,
      cellAfter f h i j = 0 ∨ cellAfter f h i j = 1 := by
    intro f hf i j
    unfold cellAfter
    cases hl : lastWrite h i j with
    | none => exact Or.inl rfl
    | some v => exact hf v (hh.vals i j v hl)
  have set : ∀ {f : Int → Int} {i j}, cellAfter f h i j = 1 → (lastWrite h i j).isSome := by
    intro f i j h1
    cases hl : lastWrite h i j with
    | none => rw [cellAfter_none hl] at h1; cases h1
    | some v => rfl
  have hS := cfgOk_S_pos hok
  have alive : cfg.strategy = .cellBased → ∀ {g : Mat Int} {cyc : Mat Nat} {f : Int → Int},
      (∀ r k, g.get r k = cellAfter f h r k) →
      (∀ r k, r < cfg.R → k < cfg.N → cyc.get r k ≤ writesIn h + mvmsIn h) → Alive E cfg g cyc m n := by
    intro hst g cyc f hgd hcy r k h1 h2 h3
    rcases hsp hst with h4 | h4
    · exact Or.inl (lt_of_lt_of_le h4 (transition_anti hA hE hp (hcy r k h1 h2))).ne'
    · obtain ⟨h5, h6⟩ := h4 r k (set (hgd r k ▸ h3))
      exact Or.inr ⟨lt_of_lt_of_le h5 (Nat.le_mul_of_pos_right _ hS), h6⟩
  have gp : ∀ r k, x.mapper.core.gd.p.get r k = cellAfter (fun w => encP cfg w 0) h r k := fun r k => by
    have := runs_gdP hok hr r k
    rw [rowOf_bin hI.bin] at this
    exact this
  have gm : ∀ r k, x.mapper.core.gd.m.get r k = cellAfter (fun w => encM cfg w 0) h r k := fun r k => by
    have := runs_gdM hok hr r k
    rw [rowOf_bin hI.bin] at this
    exact this
  obtain ⟨x', h5⟩ := rdStep_total (E := E) (cfg := cfg) (m := m) (n := n) (rd := rd)
    (x := { x with
      mvms := x.mvms + 1
      consec := x.consec + 1
      mapper := { x.mapper with aux := a' } }) hE hok hI hD hsh.core hx hs hp (Nat.succ_ne_zero _)
    (fun i j _ _ => ⟨by
        show x.mapper.core.gd.p.get i j = 0 ∨ x.mapper.core.gd.p.get i j = 1
        rw [gp]; exact bin (fun w hw => (enc_bin hI.bin hw 0).1) i j, by
        show x.mapper.core.gd.m.get i j = 0 ∨ x.mapper.core.gd.m.get i j = 1
        rw [gm]; exact bin (fun w hw => (enc_bin hI.bin hw 0).2) i j⟩) hd
    fun hst => ⟨alive hst gp fun r k h1 h2 => (cycles_le_calls hok hrd hr hx h1 h2).1,
      alive hst gm fun r k h1 h2 => (cycles_le_calls hok hrd hr hx h1 h2).2⟩
  refine ⟨x', r, ?_, hG⟩
  unfold xMvm
  simp only [hI.analog, hc2, hrd, Bool.false_eq_true, if_false, if_true, ok_bind, e, h5]

/-! ## Sessions -/

theorem EveryMvm.mono {P Q : List Op → Vec Int → Vec Int → Nat → Nat → String → Prop} {ops : List Op}
    (hPQ : ∀ h res vec m n l, P h res vec m n l → Q h res vec m n l) (hP : EveryMvm P h ops) : EveryMvm Q h ops := by
  induction ops generalizing h with
  | nil => trivial
  | cons op ops ih =>
    cases op with
    | write mat m n => exact ih hP
    | mvm res vec mat m n l => exact ⟨hPQ _ _ _ _ _ _ hP.1, ih hP.2⟩

/-- No multiplication of a session happens after more calls than the session has. -/
theorem everyMvm_counts (ops : List Op) : EveryMvm (fun h' _ _ _ _ _ =>
    mvmsIn h' ≤ mvmsIn h + mvmsIn ops ∧ writesIn h' ≤ writesIn h + writesIn ops) h ops := by
  induction ops generalizing h with
  | nil => trivial
  | cons op ops ih =>
    cases op with
    | write mat m n =>
      refine EveryMvm.mono (fun h' _ _ _ _ _ hc => ?_) (ih (h := .write mat m n :: h))
      simp only [mvmsIn, writesIn] at hc ⊢
      omega
    | mvm res vec mat m n l =>
      refine ⟨⟨Nat.le_add_right _ _, Nat.le_add_right _ _⟩, EveryMvm.mono (fun h' _ _ _ _ _ hc => ?_)
        (ih (h := .mvm res vec mat m n l :: h))⟩
      simp only [mvmsIn, writesIn] at hc ⊢
      omega

/-- Legal calls return, if the cells stay near their nominal currents. -/
theorem exec_disturbed {P : List Op → Vec Int → Vec Int → Nat → Nat → String → Prop}
    {G : List Op → Vec Int → Vec Int → Nat → Nat → String → Vec Int → Prop} {Q : List Op → Prop} (hA : RdArith E)
    (hE : ExactArith E) (hok : CfgOk cfg) (hI : Binary cfg) (hc2 : cfg.c2c = false) (hrd : cfg.readDisturb = true)
    (hD : DisturbOk cfg)
    (near : ∀ {h : List Op} {x : Xbar K} {m n : Nat}, Q h → Runs E cfg h x → Accepted cfg m n →
      NearNominal cfg ε (lastWrite h) x.mapper.core.ia m n)
    (step : ∀ {h : List Op} {x : Xbar K} {res vec : Vec Int} {m n : Nat} {l : String}, Runs E cfg h x →
      HistOk cfg w h → LegalMvm cfg w h res vec m n → P h res vec m n l →
      NearNominal cfg ε (lastWrite h) x.mapper.core.ia m n →
      ∃ a' r, aMvm E cfg x.mapper.core x.mapper.aux res vec m n l = .ok (a', r) ∧ G h res vec m n l r)
    {ops : List Op} (hr : Runs E cfg h x) (hh : HistOk cfg w h) (hl : LegalOps cfg w h ops) (hP : EveryMvm P h ops)
    (hQ : EveryMvm (fun h _ _ _ _ _ => Q h) h ops) (hsp : cfg.strategy = .cellBased → AllSpared E cfg h ops) :
    ∃ x' rs, exec E cfg x ops = .ok (x', rs) ∧ AnswersBy G h ops rs := by
  have hS : EveryMvm (fun h _ _ m n _ => cfg.strategy = .cellBased → Spared E cfg h m n) h ops := by
    by_cases hst : cfg.strategy = .cellBased
    · exact EveryMvm.mono (fun _ _ _ _ _ _ hs _ => hs) (hsp hst)
    · exact EveryMvm.mono (fun _ _ _ _ _ _ _ hs => absurd hs hst) hQ
  exact exec_by hok hI (fun hr hh k1 hp => mvm_disturbed hA hE hok hI hc2 hrd hD hp.2.2 hr hh k1.dims
    (step hr hh k1 hp.1 (near hp.2.1 hr k1.dims))) hr hh hl (EveryMvm.and hP (EveryMvm.and hQ hS))

/-- Ideal converter. -/
theorem exec_disturbed_ideal {Q : List Op → Prop} (hA : RdArith E)
    (hE : ExactArith E) (hok : CfgOk cfg) (hI : Imperfect cfg) (hc2 : cfg.c2c = false) (hrd : cfg.readDisturb = true)
    (hD : DisturbOk cfg) (h0 : 0 ≤ ε)
    (near : ∀ {h : List Op} {x : Xbar K} {m n : Nat}, Q h → Runs E cfg h x → Accepted cfg m n →
      NearNominal cfg ε (lastWrite h) x.mapper.core.ia m n)
    {ops : List Op} (hr : Runs E cfg h x) (hh : HistOk cfg w h) (hl : LegalOps cfg w h ops) (hR : NoiseRooms cfg ε ops)
    (hQ : EveryMvm (fun h _ _ _ _ _ => Q h) h ops) (hsp : cfg.strategy = .cellBased → AllSpared E cfg h ops) :
    ∃ x' rs, exec E cfg x ops = .ok (x', rs) ∧ AnswersWithin (noiseBound cfg ε) h ops rs := by
  obtain ⟨x', rs, h1, h2⟩ := exec_disturbed (w := w)
    (G := fun h res vec m n _ r => AddsWithin (noiseBound cfg ε n) r res (stored h) vec m n) hA hE hok (binary_of hI)
    hc2 hrd hD near (fun hr hh k1 hR0 hw => aMvm_within hE hok hI (runs_shape hr).core (runs_shape hr).aux
      (runs_cells hok hr) (legal_of hh k1) k1.dims h0 hw k1.vecBuf k1.resBuf k1.vals
      (fun hk i _ => sums_of hr hh k1 hk i) hR0) hr hh hl (everyMvm_rooms hR h) hQ hsp
  exact ⟨x', rs, h1, answersWithin_of h2⟩

/-- Real converter. -/
theorem exec_disturbed_real {Q : List Op → Prop} {rg : String → K × K} (hA : RdArith E)
    (hE : ExactArith E) (hok : CfgOk cfg) (hI : Binary cfg) (hc2 : cfg.c2c = false) (hrd : cfg.readDisturb = true)
    (hD : DisturbOk cfg) (h0 : 0 ≤ ε)
    (near : ∀ {h : List Op} {x : Xbar K} {m n : Nat}, Q h → Runs E cfg h x → Accepted cfg m n →
      NearNominal cfg ε (lastWrite h) x.mapper.core.ia m n)
    {ops : List Op} (hr : Runs E cfg h x) (hh : HistOk cfg w h) (hl : LegalOps cfg w h ops) (hC : AllConvert cfg rg h ops)
    (hQ : EveryMvm (fun h _ _ _ _ _ => Q h) h ops) (hsp : cfg.strategy = .cellBased → AllSpared E cfg h ops) :
    ∃ x' rs, exec E cfg x ops = .ok (x', rs) ∧ AnswersUpTo (fun l => deviationBound cfg (rg l).1 (rg l).2 ε) h ops rs ∧
      (AllAbsorbed cfg rg ε h ops → Answers h ops rs) := by
  obtain ⟨x', rs, h1, h2⟩ := exec_disturbed (w := w)
    (G := fun h res vec m n l r => Converted cfg (rg l).1 (rg l).2 ε (stored h) res vec m n r) hA hE hok hI
    hc2 hrd hD near (fun hr hh k1 hC0 hw => aMvm_converted hE hok hI (runs_shape hr).core (runs_shape hr).aux
      (runs_cells hok hr) (legal_of hh k1) k1.dims h0 hw k1.vecBuf k1.resBuf k1.vals
      (fun hk i _ => sums_of hr hh k1 hk i) hC0.1 hC0.2) hr hh hl hC hQ hsp
  exact ⟨x', rs, h1, answersBy_mono (fun _ _ _ _ _ _ _ h => h.1) h2, answersBy_absorbed h2⟩

/-- The bound for all of a session without mitigation. -/
theorem near_unmitigated' (hA : RdArith E) (hE : ExactArith E) (hok : CfgOk cfg) (hi : cfg.mode.isInt = false)
    (hdo : cfg.digitalOnly = false) (hrd : cfg.readDisturb = true) (hst : cfg.strategy = .off) (htr : 0 ≤ cfg.tRead)
    (h1 : 0 ≤ cfg.hrs) (h2 : 0 ≤ cfg.lrs) (hg : Quiet cfg ∨ ∀ k, |E.gauss k| ≤ ε) {a b : Nat}
    (ht : cfg.lrs * (1 - attenuation E cfg a b) ≤ ε) (hr : Runs E cfg h x) (ha : mvmsIn h ≤ a) (hb : writesIn h ≤ b)
    (hd : Accepted cfg m n) : 0 ≤ ε ∧ NearNominal cfg ε (lastWrite h) x.mapper.core.ia m n := by
  obtain ⟨rd, _, _, hp⟩ := runs_params hrd hr
  refine near_unmitigated hA hE hok hi hdo hrd hst htr h1 h2 hg (le_trans ?_ ht) hr hd
  have := attenuation_anti hA hE hp htr ha hb
  exact mul_le_mul_of_nonneg_left (by linarith) h2

end

end Acs
