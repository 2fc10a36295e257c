import Verif.Lemmas.WireOrig

/-! # Sessions on a crossbar with resistive wires -/

set_option linter.unusedSectionVars false

namespace Acs

open Finset Spec

section
variable {K : Type} [Field K] [LinearOrder K] [IsStrictOrderedRing K] [FloorRing K]
variable {E : Env K} {cfg : Cfg K} {mat vec res r : Vec Int} {m n w : Nat} {l : String}
variable {x x' : Xbar K} {h : List Op} {ε lo hi : K} {rg : String → K × K} {L : Nat → Nat → Option Int}
variable {W : Nat → Nat → Int}

/-! ## One multiplication -/

/-- The result of a multiplication: an error bound, and no error at all if the rounding absorbs the deviations. -/
def WireConverted (cfg : Cfg K) (lo hi ε : K) (W : Nat → Nat → Int) (res vec : Vec Int) (m n : Nat) (r : Vec Int) : Prop :=
  AddsUpTo (fun _ => wireBound cfg lo hi ε vec n) r res W vec m n ∧
    (WireAbsorbed cfg lo hi ε vec n → Adds r res W vec m n)

theorem rowDev_wire (hI : Resistive cfg) (hs : 0 ≤ adcStep cfg lo hi) (h0 : 0 ≤ ε) :
    rowDev cfg.mode (devQ cfg lo hi) (wireDev cfg ε) 0 vec n ≤ wireBound cfg lo hi ε vec n := by
  unfold rowDev wireBound
  refine List.sum_le_sum fun c hc => ?_
  have hk := (readout_scale c hc).2
  have hk' : (0 : K) ≤ (c.2 : K) := by exact_mod_cast hk
  have h1 := lineLoss_nonneg (I := cfg.lrs + ε) hI.wire.le hI.read ((c.2 : K) / bitLines cfg.mode)
  refine (convE_le _ ?_).trans (le_of_eq ?_)
  · unfold devQ wireDev
    exact mul_nonneg (abs_nonneg _) (by nlinarith)
  · unfold devQ wireDeviation wireDev
    rw [add_zero]

theorem absorbs_wire (hA : WireAbsorbed cfg lo hi ε vec n) :
    Absorbs cfg (fun c => devQ cfg lo hi c.1 (wireDev cfg ε c.2 + 0)) vec n := by
  have e : (fun c : Int × Int => devQ cfg lo hi c.1 (wireDev cfg ε c.2 + 0)) = wireDeviation cfg lo hi ε :=
    funext fun c => by
      unfold devQ wireDeviation wireDev
      rw [add_zero]
  rw [e]
  exact hA

theorem aMvm_wired {s : Solver K} {b : Nat × Nat} (hE : ExactArith E) (hok : CfgOk cfg) (hI : Resistive cfg)
    (hsh : Shape E cfg x) (htn : Tuned cfg x.mapper.core.par) (hs : x.mapper.core.par = some s)
    (hsy : InSync E cfg x b.1 b.2) (hpos : Conducts cfg x b.1 b.2) (hm : m ≤ b.1) (hn : n ≤ b.2)
    (hN : b.2 * lines cfg.mode ≤ cfg.N) (hT : taps cfg m ≤ cfg.M) (hL : Cells cfg x.mapper.core.gd L)
    (hl : Legal cfg L m n) (hd : Accepted cfg m n) (h0 : 0 ≤ ε) (hw : NearNominal cfg ε L x.mapper.core.ia m n)
    (hv : n ≤ vec.size) (hr : m ≤ res.size) (hx : LegalVec cfg vec n)
    (hsum : keepsRowSums cfg.mode → ∀ i, i < m → x.mapper.core.gd.sumW.get i = ∑ j ∈ range n, val L i j)
    (hA : AdcOk cfg l lo hi) (hC : Converts cfg lo hi (val L) res vec m n) :
    ∃ a' r, aMvm E cfg x.mapper.core x.mapper.aux res vec m n l = .ok (a', r) ∧
      WireConverted cfg lo hi ε (val L) res vec m n r := by
  have hb := hI.bin
  have H := sync_curHyp (vec := vec) (res := res) hE hok hI hsh htn hs hsy hpos hm hn hN hT hL hl hd hw hv hr
  obtain ⟨a', f, e, hf, hz⟩ := H.real (realHyp hE hI.analog hI.prof hI.lt.ne hsh.core hA 2147483647) (roomy_of hb hC) hb
    hsh.core.mode hok
    (fun i j r hi hj => by rw [stateP hb hL hl hi hj, nominal_bin hb]; unfold cur; push_cast; ring)
    (fun i j r hi hj => by rw [stateM hb hL hl hi hj, nominal_bin hb]; unfold cur; push_cast; ring)
    (fun i j hi hj => by
      rw [stateP hb hL hl hi hj, stateM hb hL hl hi hj]
      exact cellRel hb (hl.val hi hj).1) hx hsum hC.range le_rfl
  refine ⟨a', _, e, ⟨rfl, fun i hi => ?_, fun i hi => Vec.over_ge hi⟩, fun hab => ⟨rfl, fun i hi => ?_, fun i hi => Vec.over_ge hi⟩⟩
  · rw [Vec.over_lt hi]
    exact (hf i hi).trans (rowDev_wire hI (adcOk_step_pos hA).le h0)
  · rw [Vec.over_lt hi]
    exact hz (absorbs_wire hab) i hi

/-! ## Crossbars -/

theorem sync_solver {b1 b2 : Nat} (h : InSync E cfg x b1 b2) : ∃ s, x.mapper.core.par = some s := by
  obtain ⟨s, _, _, e, _⟩ := h
  exact ⟨s, e⟩

theorem aux_rng {a a' : Aux K} (h : AuxShape cfg a) (e : a' = { a with rng := a'.rng }) : AuxShape cfg a' := by
  rw [e]
  exact ⟨h.vdP, h.vdM, h.vdSlice, h.tmpInt, h.tmpFp, h.tmp, h.tmpP, h.tmpM, h.tmpLsb, h.tmpMsb, h.resFp⟩

/-- Multiplications with resistive wires read no cell currents: variation has no effect on them. -/
theorem mvm_par {G : Vec Int → Prop} (hok : CfgOk cfg) (hI : Resistive cfg) (hsh : Shape E cfg x) (hd : Accepted cfg m n)
    (hg : ∀ i j, i < m → j < n → (x.mapper.core.gd.p.get i j = 0 ∨ x.mapper.core.gd.p.get i j = 1) ∧
      (x.mapper.core.gd.m.get i j = 0 ∨ x.mapper.core.gd.m.get i j = 1))
    (hm : ∀ a, AuxShape cfg a → ∃ a' r, aMvm E cfg x.mapper.core a res vec m n l = .ok (a', r) ∧ G r) :
    (∀ x' r, xMvm E cfg x res vec mat m n l = .ok (x', r) → G r) ∧
    (cfg.readDisturb = false → ∃ x' r, xMvm E cfg x res vec mat m n l = .ok (x', r)) := by
  cases hc2 : cfg.c2c
  · exact mvm_of_aMvm hI.analog hc2 (hm _ hsh.aux)
  obtain ⟨mp, e1⟩ := addC2C_total (E := E) (mp := x.mapper) hok hsh.core hd hg
  have hcs : CoreShape E cfg mp.core := ((sat_addC2C lax_true hsh.core fun h => absurd trivial h).of_ok e1).1
  have has : AuxShape cfg mp.aux := aux_rng hsh.aux (addC2C_frame e1).2.2.2
  have ec : mp.core = { x.mapper.core with ia := mp.core.ia } := by
    unfold addC2C at e1
    dsimp only at e1
    rw [bind_eq_ok] at e1
    obtain ⟨_, _, e1⟩ := e1
    rw [ok_inj] at e1
    rw [← e1]
  obtain ⟨a', r, e2, hA⟩ := hm _ has
  rw [← aMvm_ia hI.par x.mapper.core mp.core.ia, ← ec] at e2
  refine ⟨fun x' r' h' => ?_, fun hrd => ?_⟩
  · unfold xMvm at h'
    simp only [hI.analog, hc2, Bool.false_eq_true, if_false, if_true, ok_bind, e1, e2] at h'
    rw [bind_eq_ok] at h'
    obtain ⟨_, _, h'⟩ := h'
    rw [bind_eq_ok] at h'
    obtain ⟨_, _, h'⟩ := h'
    cases ok_inj.1 h'
    exact hA
  · obtain ⟨mp2, e3⟩ := removeC2C_total (mp := { mp with aux := a' }) hok hcs hd
    refine ⟨{ x with mvms := x.mvms + 1, consec := x.consec + 1, mapper := mp2 }, r, ?_⟩
    unfold xMvm
    simp only [hI.analog, hc2, hrd, Bool.false_eq_true, if_false, if_true, ok_bind, e1, e2, e3]

theorem mvm_wired (hE : ExactArith E) (hok : CfgOk cfg) (hI : Resistive cfg) (hM : 0 < cfg.M) (hN : 0 < cfg.N)
    (hr : Runs E cfg h x) (hP : Placed cfg h m n)
    (hl : Legal cfg (lastWrite h) m n) (hd : Accepted cfg m n) (hg : NoiseUpTo E cfg ε)
    (hv : n ≤ vec.size) (hres : m ≤ res.size) (hx : LegalVec cfg vec n)
    (hs : keepsRowSums cfg.mode → ∀ i, i < m →
      x.mapper.core.gd.sumW.get i = ∑ j ∈ range n, val (lastWrite h) i j)
    (hA : AdcOk cfg l lo hi) (hC : Converts cfg lo hi (stored h) res vec m n) :
    (∀ x' r, xMvm E cfg x res vec mat m n l = .ok (x', r) → WireConverted cfg lo hi ε (stored h) res vec m n r) ∧
    (cfg.readDisturb = false → ∃ x' r, xMvm E cfg x res vec mat m n l = .ok (x', r)) := by
  obtain ⟨b, hb, b1, b2, b3, b4⟩ := hP.block
  obtain ⟨b', c1, c2, c3, hsy⟩ := runs_sync hok hI hM hN hr hb b3 b4
  obtain ⟨s, hs'⟩ := sync_solver hsy
  have hsh := runs_shape hr
  have hL := runs_cells hok hr
  have hia := hsh.core.ia
  refine mvm_par hok hI hsh hd (fun i j hi hj => ?_) fun a ha => ?_
  · rw [stateP hI.bin hL hl hi hj, stateM hI.bin hL hl hi hj]
    exact enc_bin hI.bin (hl.val hi hj).1 0
  · obtain ⟨a', r, e, hG⟩ := aMvm_wired (x := { orig x with mapper := { (orig x).mapper with aux := a } }) hE hok hI
      ⟨⟨hsh.core.fixed.imp fun c0 hc => ⟨hc.1, ⟨hc.2.1, hc.2.2, hc.2.3, hc.2.4, hc.2.5, hc.2.6, hc.2.7, hc.2.8⟩⟩,
        hsh.core.gd, ⟨hia.pO, hia.mO, hia.pO, hia.mO⟩, hsh.core.par⟩, ha, hsh.rd, hsh.parEx⟩
      (show Tuned cfg x.mapper.core.par from runs_tuned hr) hs' hsy
      (runs_near_orig hE hok hI hg hr).2 (b1.trans c1) (b2.trans c2) c3 hP.taps hL hl hd hg.1
      (runs_near_orig hE hok hI hg hr).1 hv hres hx hs hA hC
    exact ⟨a', r, (aMvm_ia hI.par x.mapper.core _ a res vec m n l).symm.trans e, hG⟩

/-! ## Writes -/

/-- An analog write programs the same currents with and without a solver. -/
theorem aWrite_push {mp mp0 : Mapper K} {par : Option (Solver K)} (hb : cfg.mode.isInt = false)
    (hmd : mp.core.mode = cfg.mode) (h : aWrite E cfg.noPar mp m n = .ok mp0)
    (hp : pushSolver E cfg mp.core.par (firstArray cfg.mode mp0.core.ia) (secondOpt cfg.mode mp0.core.ia) m n = .ok par) :
    ∃ mp', aWrite E cfg mp m n = .ok mp' := by
  unfold aWrite at h ⊢
  dsimp only at h ⊢
  rw [hmd] at h ⊢
  cases hm : cfg.mode <;> simp only [hm] at h ⊢ hb hp
  all_goals first
    | exact absurd hb (by decide)
    | skip
  all_goals
    rw [bind_eq_ok] at h
    obtain ⟨ia, h1, h⟩ := h
    rw [bind_eq_ok] at h
    obtain ⟨par', h2, h⟩ := h
    rw [ok_inj] at h
    subst h
    simp only [firstArray, secondOpt, secondArray, pair, lines, reduceCtorEq, if_false, if_true, Nat.reduceMul,
      Nat.reduceEqDiff] at hp
    refine ⟨_, (bind_eq_ok ..).2 ⟨ia, h1, (bind_eq_ok ..).2 ⟨par, hp, rfl⟩⟩⟩

theorem xWrite_total_w (hok : CfgOk cfg) (hI : Resistive cfg) (hM0 : 0 < cfg.M) (hN : 0 < cfg.N) (hr : Runs E cfg h x)
    (hd : Accepted cfg m n) (hmat : m * n ≤ mat.size)
    (hl : LegalMat cfg (entry mat n) m n) (hsum : SumRoom cfg m n) (hn : n * lines cfg.mode ≤ cfg.N) :
    ∃ x', xWrite E cfg x mat m n = .ok x' := by
  have hs := runs_shape hr
  have hL := runs_cells hok hr
  obtain ⟨r, h1⟩ := xWriteD_total hok hs hd hmat hl hsum
  obtain ⟨gd, h2, h3⟩ := xWriteD_mapper h1
  have hgs : GdShape cfg gd := (sat_dWriteGd lax_true hs.core (Fits.mk' fun h => absurd trivial h)
    (fun h => absurd trivial h)).of_ok h2
  have hfit := Fits.row hok hd
  have hS := cfgOk_S_pos hok
  have hns := hs.core.numSeg
  have hmd := hs.core.mode
  have hia := hs.core.ia
  have key : Sat (fun _ => False)
      (aWrite E cfg.noPar { x.mapper with core := { x.mapper.core with gd := gd } } m n) fun _ => True := by
    refine (cont_aWrite ?_ (fun h => by cases h) (fun _ hi s h => ?_) fun _ hi i j him hj => ?_).true
    · refine ⟨hgs.p, hgs.m, ⟨hia.p, hia.m, hia.pO, hia.mO⟩, fun _ => hfit.1, fun _ => ?_, fun _ => hd.2.1, fun _ => ?_⟩
      · dsimp only
        rw [hns]
        split
        · exact hfit.2
        · exact (Nat.zero_le _ : m * 0 ≤ _)
      · dsimp only
        rw [hns, hs.core.iStep_size]
        split <;> omega
    · dsimp only at hi
      rw [hmd, hI.bin] at hi
      cases hi
    · dsimp only at hi ⊢
      rw [hmd] at hi
      have hcell := dWriteGd_cells hok hs.core hL h2
      have e : put (lastWrite h) mat m n i j = some (entry mat n i j) := if_pos ⟨him, hj⟩
      have := enc_bin hi (hl i j him hj) 0
      rw [hcell.p, hcell.m, rowOf_bin hi, e]
      exact this
  rcases key.elim with ⟨mp0, h4, _⟩ | ⟨e, _, h⟩
  swap
  · exact h.elim
  obtain ⟨s, hs0⟩ : ∃ s, x.mapper.core.par = some s :=
    Option.ne_none_iff_exists'.1 (hs.parEx hI.analog hI.par)
  have hc0 : CoreShape E cfg.noPar { x.mapper.core with gd := gd } :=
    ⟨hs.core.fixed.imp fun c0 hc => ⟨hc.1, ⟨hc.2.1, hc.2.2, hc.2.3, hc.2.4, hc.2.5, hc.2.6, hc.2.7, hc.2.8⟩⟩, ⟨hgs.p, hgs.m, hgs.sumW⟩, ⟨hia.p, hia.m, hia.pO, hia.mO⟩, hs.core.par⟩
  have hia' : IaShape cfg.noPar mp0.core.ia :=
    ((sat_aWrite lax_true hc0 (Fits.mk' fun h => absurd trivial h)
      ⟨fun h => absurd trivial h, fun h => absurd trivial h⟩).of_ok h4).1.ia
  have hsd := hs.core.par s hs0
  have ht := runs_tuned hr s hs0
  have hR : cfg.M ≤ cfg.R := by
    unfold Cfg.R; exact Nat.le_mul_of_pos_right _ hS
  have hM : m ≤ cfg.M := hd.1
  have hpI : (firstArray cfg.mode mp0.core.ia).Is cfg.R cfg.N := by
    unfold firstArray; split
    · exact hia'.m
    · exact hia'.p
  have hqI : (secondArray cfg.mode mp0.core.ia).Is cfg.R cfg.N := by
    unfold secondArray; split
    · exact hia'.p
    · exact hia'.m
  have hset := setConductance_ok (E := E) (cfg := cfg) (s := s) (A := firstArray cfg.mode mp0.core.ia)
    (B := secondOpt cfg.mode mp0.core.ia) (q := secondArray cfg.mode mp0.core.ia) (m := m) (n := n)
    (by rw [hsd.2.2]; exact ht.2.2)
    (by
      unfold secondOpt
      rw [hsd.2.2]
      split
      · next h1 => exact Or.inr ⟨rfl, h1⟩
      · exact Or.inl rfl)
    (by rw [ht.2.1]; exact hI.read.ne) (by rw [ht.1]; exact hI.wire.ne') (Nat.le_mul_of_pos_right _ hS)
    (by rw [hsd.1, hpI.1]; exact hR) (by rw [hsd.2.1, hpI.2])
    (by rw [hqI.1]; unfold Cfg.R; exact Nat.mul_pos hM0 hS) (by rw [hsd.1, hqI.1]; exact hR) (by rw [hsd.2.1, hqI.2])
    (by rw [hsd.1]; exact hM) (by rw [hsd.2.2, hsd.2.1]; exact hn) (by rw [hsd.2.1]; exact hN)
  obtain ⟨mp', h5⟩ := aWrite_push (mp := { x.mapper with core := { x.mapper.core with gd := gd } }) hI.bin hmd h4
    (par := some _) (by
      unfold pushSolver
      rw [if_pos hI.par]
      dsimp only
      rw [hs0]
      dsimp only
      rw [hset, ok_bind])
  unfold xWrite
  rw [h1, ok_bind, h3, if_neg (by simp [hI.analog])]
  exact ⟨_, by rw [h5, ok_bind]⟩

/-! ## Sessions -/

/-- Legal writes return, and every answer is within the bound.  Without read disturb the multiplications return too. -/
theorem exec_wired (hE : ExactArith E) (hok : CfgOk cfg) (hI : Resistive cfg) (hM : 0 < cfg.M) (hN : 0 < cfg.N)
    (hg : NoiseUpTo E cfg ε) {ops : List Op} (hr : Runs E cfg h x) (hh : HistOk cfg w h)
    (hl : LegalOps cfg w h ops) (hP : AllPlaced cfg h ops) (hC : AllConvert cfg rg h ops) :
    (∀ x' rs, exec E cfg x ops = .ok (x', rs) → AnswersBy (fun h res vec m n l r =>
      WireConverted cfg (rg l).1 (rg l).2 ε (stored h) res vec m n r) h ops rs) ∧
    (cfg.readDisturb = false → ∃ x' rs, exec E cfg x ops = .ok (x', rs)) := by
  induction ops generalizing h x with
  | nil => exact ⟨fun x' rs h => by cases h; exact .nil, fun _ => ⟨x, [], rfl⟩⟩
  | cons op ops ih =>
    have hP2 : ∀ mat m n, Op.write mat m n ∈ ops → n * lines cfg.mode ≤ cfg.N := fun a b c ho =>
      hP.2 a b c (List.mem_cons_of_mem _ ho)
    cases op with
    | write mat m n =>
      obtain ⟨k1, k2⟩ := hl
      obtain ⟨x1, hx1⟩ := xWrite_total_w hok hI hM hN hr k1.dims k1.buf k1.vals k1.sums
        (hP.2 mat m n List.mem_cons_self)
      obtain ⟨h3, h4⟩ := ih (.write hr hx1) (hh.write k1) k2 ⟨hP.1, hP2⟩ hC
      rw [exec, hx1, ok_bind]
      exact ⟨fun x' rs h => .write (h3 x' rs h), h4⟩
    | mvm res vec mat m n l =>
      obtain ⟨k1, k2⟩ := hl
      obtain ⟨ha, ha'⟩ := mvm_wired (mat := mat) hE hok hI hM hN hr hP.1.1
        (legal_of hh k1) k1.dims hg k1.vecBuf k1.resBuf k1.vals (fun hk i _ => sums_of hr hh k1 hk i) hC.1.1 hC.1.2
      refine ⟨fun x' rs h => ?_, fun hrd => ?_⟩
      · rw [exec] at h
        simp only [bind_eq_ok, ok_inj, Prod.mk.injEq] at h
        obtain ⟨⟨x1, r⟩, hx1, ⟨x2, rs'⟩, hx2, rfl, rfl⟩ := h
        exact .mvm (ha _ _ hx1) ((ih (.mvm hr hx1) hh.mvm k2 ⟨hP.1.2, hP2⟩ hC.2).1 _ _ hx2)
      · obtain ⟨x1, r, hx1⟩ := ha' hrd
        obtain ⟨x', rs, h3⟩ := (ih (.mvm hr hx1) hh.mvm k2 ⟨hP.1.2, hP2⟩ hC.2).2 hrd
        refine ⟨x', r :: rs, ?_⟩
        rw [exec, hx1, ok_bind]
        dsimp only
        rw [h3, ok_bind]

theorem answersBy_wireAbsorbed {ops : List Op} {rs : List (Vec Int)}
    (ha : AnswersBy (fun h res vec m n l r =>
      WireConverted cfg (rg l).1 (rg l).2 ε (stored h) res vec m n r) h ops rs)
    (hb : AllWireAbsorbed cfg rg ε h ops) : Answers h ops rs := by
  induction ha with
  | nil => exact .nil
  | write _ ih => exact .write (ih hb)
  | mvm a _ ih => exact .mvm (a.2 hb.1) (ih hb.2)

end

end Acs
