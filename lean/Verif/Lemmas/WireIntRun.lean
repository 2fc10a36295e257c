import Verif.Lemmas.WireInt

/-! # Sessions of integer mappings with resistive wires -/

set_option linter.unusedSectionVars false

namespace Acs

open Finset Spec

section
variable {K : Type} [Field K] [LinearOrder K] [IsStrictOrderedRing K] [FloorRing K]
variable {E : Env K} {cfg : Cfg K} {mat vec res r : Vec Int} {m n w : Nat} {l : String}
variable {x x' : Xbar K} {h : List Op} {lo hi A : K} {rg : String → K × K} {L : Nat → Nat → Option Int}
variable {W : Nat → Nat → Int}

theorem wires_true (hp : cfg.parasitics = true) : cfg.noPar.wires true = cfg := by
  unfold Cfg.noPar Cfg.wires
  rw [← hp]

/-! ## Cells -/

theorem nominal_between (hok : CfgOk cfg) (hI : ResistiveInt cfg) {r : Nat} {g : Int} (h1 : 0 ≤ g)
    (h2 : g ≤ topState cfg r) : 0 ≤ nominal cfg r g ∧ nominal cfg r g ≤ cfg.lrs := by
  have hS := cfgOk_S_pos hok
  have hp : 0 < sliceTop cfg (r % cfg.S) := lt_of_lt_of_le one_pos (sliceTop_pos (by
    have hlt : r % cfg.S < cfg.S := Nat.mod_lt r hS
    rw [List.getD_eq_getElem _ _ hlt]; exact hI.split _ (List.getElem_mem hlt)))
  have e : nominal cfg r g = cfg.hrs + (g : K) / sliceTop cfg (r % cfg.S) * (cfg.lrs - cfg.hrs) := by
    rw [nominal_int hI.int]
    unfold sliceTop
    ring
  rw [topState_int hI.int] at h2
  have h3 : (g : K) ≤ sliceTop cfg (r % cfg.S) := by
    have : (g : K) ≤ ((2 ^ cfg.split.getD (r % cfg.S) 0 - 1 : Int) : K) := Int.cast_le.2 h2
    push_cast at this
    exact this
  have k1 : 0 ≤ (g : K) / sliceTop cfg (r % cfg.S) := div_nonneg (Int.cast_nonneg h1) hp.le
  have k2 : (g : K) / sliceTop cfg (r % cfg.S) ≤ 1 := (div_le_one hp).2 h3
  have k3 := hI.lt
  have k4 := hI.hrs
  rw [e]
  constructor <;> nlinarith

/-- Cells have their nominal currents. -/
theorem wCells (hE : ExactArith E) (hok : CfgOk cfg) (hI : ResistiveInt cfg) (hr : Runs E cfg h x) (r k : Nat) :
    (x.mapper.core.ia.p.get r k = nominal cfg r (x.mapper.core.gd.p.get r k) ∧
        0 ≤ x.mapper.core.gd.p.get r k ∧ x.mapper.core.gd.p.get r k ≤ topState cfg r) ∧
      (x.mapper.core.ia.m.get r k = nominal cfg r (x.mapper.core.gd.m.get r k) ∧
        0 ≤ x.mapper.core.gd.m.get r k ∧ x.mapper.core.gd.m.get r k ≤ topState cfg r) := by
  obtain ⟨hq, hsc⟩ := intScale_exact hE hI.width hI.lt.ne hI.split
  obtain ⟨⟨h1, h2⟩, h3, h4⟩ := iCells (ε := 0) hq hsc le_rfl (by simp [CellsRound, cellRound]) hok hI.analog hI.c2c hI.rd
    hI.split hI.int hr r k
  exact ⟨⟨sub_eq_zero.1 (abs_nonpos_iff.1 h1), h2⟩, sub_eq_zero.1 (abs_nonpos_iff.1 h3), h4⟩

/-- The solver holds the latest write. -/
theorem runs_sync_int (hok : CfgOk cfg) (hI : ResistiveInt cfg) (hM : 0 < cfg.M) (hN : 0 < cfg.N) (hr : Runs E cfg h x)
    {b : Nat × Nat} (hb : newestBlock h = some b) (h1 : b.1 * cfg.S ≤ cfg.M) (h2 : b.2 ≤ cfg.N) :
    InSync E cfg x b.1 b.2 := by
  induction hr with
  | init => cases hb
  | write hr hx _ =>
    obtain rfl := Option.some.inj hb
    exact write_sync hr hI.analog hI.par hI.read.ne hI.wire.ne' (cfgOk_S_pos hok) hM hN
      (by rw [slices_int hI.int]; exact h1) (by rw [lines_int hI.int, Nat.mul_one]; exact h2) hx
  | mvm hr hx ih => exact sync_mvm ⟨hI.c2c, hI.rd⟩ hx (ih hb)

/-! ## One multiplication -/

theorem wHyp (hE : ExactArith E) (hok : CfgOk cfg) (hI : ResistiveInt cfg) (hM : 0 < cfg.M) (hN : 0 < cfg.N)
    (hr : Runs E cfg h x) (hP : PlacedInt cfg h m n) (hl : Legal cfg (lastWrite h) m n)
    (hd : Accepted cfg m n) (hs : keepsRowSums cfg.mode → ∀ i, i < m →
      x.mapper.core.gd.sumW.get i = ∑ j ∈ range n, val (lastWrite h) i j)
    (hv : n ≤ vec.size) (hres : m ≤ res.size) (hx : LegalVec cfg vec n) :
    IHyp E cfg.noPar true x (lastWrite h) res vec m n (sliceDev cfg.noPar (wireEps cfg n) ⟨0, 0, 0⟩ n) := by
  obtain ⟨b, hb, b1, b2, b3, b4⟩ := hP
  have hsh := runs_shape hr
  have hcell := runs_cells hok hr
  have key := wCells hE hok hI hr
  have hw := wires_true hI.par
  have hsy := runs_sync_int hok hI hM hN hr hb b3 b4
  have bd := fun r k => And.intro
    ((key r k).1.1 ▸ nominal_between hok hI (key r k).1.2.1 (key r k).1.2.2)
    ((key r k).2.1 ▸ nominal_between hok hI (key r k).2.2.1 (key r k).2.2.2)
  have hb2 : cfg.mode ≠ .bnn2 := fun e => by have := hI.int; rw [e] at this; exact absurd this (by decide)
  have hpos : Conducts cfg x b.1 b.2 := fun i j _ _ => by
    unfold firstArray secondArray
    rw [if_neg hb2, if_neg hb2]
    exact ⟨(bd i j).1.1, (bd i j).2.1⟩
  have del := wire_delivers (m := m) (n := n) hE hI hsh (runs_tuned hr) hsy hpos b1 b2 b4 b3
  have base : AHyp E cfg.noPar (nomX cfg.noPar x) (lastWrite h) res vec m n := {
    ok := hok
    id := ⟨hI.analog, rfl, hI.c2c, hI.rd, hI.prof, (fun e => by
      have := hI.int; change cfg.mode.isInt = false at e; rw [e] at this; cases this), hI.lt.ne, fun _ => hI.split⟩
    shape := nomX_shape (pr := true) rfl (by rw [hw]; exact hsh)
    cells := ⟨hcell.p, hcell.m⟩
    cur := fun r k => ⟨⟨rfl, (key r k).1.2.1, (key r k).1.2.2⟩, ⟨rfl, (key r k).2.2.1, (key r k).2.2.2⟩⟩
    legal := hl
    dims := hd
    sums := hs
    hv := hv
    hr := hres
    hx := hx }
  have hint : cfg.noPar.mode.isInt = true := hI.int
  refine {
    int := hI.int
    base := base
    tmp := fun e => by cases e
    diff := fun hm => ⟨_, by rw [hw]; exact del _, fun v b i s hi' hs' => ?_⟩
    one := fun hm => ⟨_, by rw [hw]; exact del _, fun v b i s hi' hs' => ?_⟩ }
  · rw [sliceDev_wire]
    have hp2 : pair cfg.mode = 2 := by
      have h1 := hI.int
      change cfg.mode ≠ .iUintWOffs at hm
      cases e : cfg.mode <;> first | rfl | exact absurd e hm | (rw [e] at h1; exact absurd h1 (by decide))
    have := wireCol_diff (t := i * cfg.S + s) hI hp2 hd.2.1 (f := fun j => bitOf (v j) b) (fun j _ => bitOf_cases _ _)
      (c := x.mapper.core) (fun j _ => bd _ _)
    refine le_trans (le_of_eq ?_) this
    congr 2
    refine sum_congr rfl fun j hj => ?_
    have hj := mem_range.1 hj
    rw [(key _ _).1.1, (key _ _).2.1]
    have g1 := base.gdPs hint hi' hs' hj
    have g2 := base.gdMs hint hi' hs' hj
    change x.mapper.core.gd.p.get (i * cfg.S + s) j = _ at g1
    change x.mapper.core.gd.m.get (i * cfg.S + s) j = _ at g2
    rw [g1, g2]
    rfl
  · rw [sliceDev_wire]
    have hp1 : pair cfg.mode = 1 := by
      change cfg.mode = .iUintWOffs at hm
      rw [hm]; rfl
    have := wireCol_one (t := i * cfg.S + s) hI hp1 hd.2.1 (f := fun j => bitOf (v j) b) (fun j _ => bitOf_cases _ _)
      (c := x.mapper.core) (fun j _ => (bd _ _).1)
    refine le_trans (le_of_eq ?_) this
    congr 2
    refine sum_congr rfl fun j hj => ?_
    have hj := mem_range.1 hj
    rw [(key _ _).1.1]
    have g1 := base.gdPs hint hi' hs' hj
    change x.mapper.core.gd.p.get (i * cfg.S + s) j = _ at g1
    rw [g1]
    rfl

theorem mvm_wired_int (hE : ExactArith E) (hok : CfgOk cfg) (hI : ResistiveInt cfg) (hM : 0 < cfg.M) (hN : 0 < cfg.N)
    (hgcc : cfg.mode = .iOffsWDiff → E.strict = false)
    (hr : Runs E cfg h x) (hP : PlacedInt cfg h m n) (hl : Legal cfg (lastWrite h) m n)
    (hd : Accepted cfg m n) (hs : keepsRowSums cfg.mode → ∀ i, i < m →
      x.mapper.core.gd.sumW.get i = ∑ j ∈ range n, val (lastWrite h) i j)
    (hv : n ≤ vec.size) (hres : m ≤ res.size) (hx : LegalVec cfg vec n)
    (hC : WireRoom cfg l lo hi (stored h) res vec m n) :
    ∃ x' r, xMvm E cfg x res vec mat m n l = .ok (x', r) ∧
      AddsUpTo (wireRow cfg lo hi (stored h) vec n) r res (stored h) vec m n := by
  obtain ⟨hq, hsc⟩ := intScale_exact hE hI.width hI.lt.ne hI.split
  have H := wHyp hE hok hI hM hN hr hP hl hd hs hv hres hx
  have h0 : 0 ≤ wireEps cfg n := by
    unfold wireEps
    have := lineLoss_nonneg (cfg := cfg) (I := cfg.lrs) hI.wire.le hI.read (n : K)
    positivity
  obtain ⟨a', r, e1, e2⟩ := H.rounded hgcc hq ⟨hsc.1, hsc.2, hsc.3, hsc.4, hsc.5, hsc.6, hsc.7⟩ h0 (intRounds_wire hI hC)
  rw [wires_true hI.par] at e1
  have e3 : AddsUpTo (wireRow cfg lo hi (stored h) vec n) r res (stored h) vec m n := by
    refine ⟨e2.size, fun i hi' => ?_, e2.tail⟩
    have := e2.head i hi'
    rw [intError_wire] at this
    exact this
  obtain ⟨hG, hx⟩ := mvm_of_aMvm (mat := mat)
    (G := fun r => AddsUpTo (wireRow cfg lo hi (stored h) vec n) r res (stored h) vec m n) hI.analog hI.c2c ⟨a', r, e1, e3⟩
  obtain ⟨x1, r1, hx1⟩ := hx hI.rd
  exact ⟨x1, r1, hx1, hG _ _ hx1⟩

/-! ## Writes -/

/-- An analog write programs the same currents with and without a solver. -/
theorem aWrite_push_int {mp mp0 : Mapper K} {par : Option (Solver K)} (hi : cfg.mode.isInt = true)
    (hmd : mp.core.mode = cfg.mode) (h : aWrite E cfg.noPar mp m n = .ok mp0)
    (hp : pushSolver E cfg mp.core.par (firstArray cfg.mode mp0.core.ia) (secondOpt cfg.mode mp0.core.ia) (m * cfg.S) n
      = .ok par) :
    ∃ mp', aWrite E cfg mp m n = .ok mp' := by
  unfold aWrite at h ⊢
  dsimp only at h ⊢
  rw [hmd] at h ⊢
  cases hm : cfg.mode <;> simp only [hm] at h ⊢ hi hp
  all_goals first
    | exact absurd hi (by decide)
    | skip
  all_goals
    rw [bind_eq_ok] at h
    obtain ⟨ia, h1, h⟩ := h
    rw [bind_eq_ok] at h
    obtain ⟨par', h2, h⟩ := h
    rw [ok_inj] at h
    subst h
    simp only [firstArray, secondOpt, secondArray, pair, lines, reduceCtorEq, if_false, if_true, Nat.reduceMul,
      Nat.reduceEqDiff] at hp
    refine ⟨_, (bind_eq_ok ..).2 ⟨ia, h1, (bind_eq_ok ..).2 ⟨par, hp, rfl⟩⟩⟩

theorem xWrite_total_wi (hE : ExactArith E) (hok : CfgOk cfg) (hI : ResistiveInt cfg) (hM0 : 0 < cfg.M) (hN : 0 < cfg.N)
    (hr : Runs E cfg h x) (hd : Accepted cfg m n) (hmat : m * n ≤ mat.size)
    (hl : LegalMat cfg (entry mat n) m n) (hsum : SumRoom cfg m n) (hm : m * cfg.S ≤ cfg.M) :
    ∃ x', xWrite E cfg x mat m n = .ok x' := by
  have hs := runs_shape hr
  obtain ⟨r, h1⟩ := xWriteD_total hok hs hd hmat hl hsum
  obtain ⟨gd, h2, h3⟩ := xWriteD_mapper h1
  have hgs : GdShape cfg gd := (sat_dWriteGd lax_true hs.core (Fits.mk' fun h => absurd trivial h)
    (fun h => absurd trivial h)).of_ok h2
  have hfit := Fits.row hok hd
  have hS := cfgOk_S_pos hok
  have hns := hs.core.numSeg
  have hmd := hs.core.mode
  have hia := hs.core.ia
  obtain ⟨hq, hsc⟩ := intScale_exact hE hI.width hI.lt.ne hI.split
  have key : Sat (fun _ => False)
      (aWrite E cfg.noPar { x.mapper with core := { x.mapper.core with gd := gd } } m n) fun _ => True := by
    refine (cont_aWrite ?_ (fun h => by cases h) (fun _ hi s h => ?_) fun _ hi => ?_).true
    · refine ⟨hgs.p, hgs.m, ⟨hia.p, hia.m, hia.pO, hia.mO⟩, fun _ => hfit.1, fun _ => ?_, fun _ => hd.2.1, fun _ => ?_⟩
      · dsimp only
        rw [hns]
        split
        · exact hfit.2
        · exact (Nat.zero_le _ : m * 0 ≤ _)
      · dsimp only
        rw [hns, hs.core.iStep_size]
        split <;> omega
    · dsimp only at h ⊢
      rw [hns, hI.int, if_pos (by simp)] at h
      rw [iStep_fl hok hI.analog hI.split hI.int hq hsc hs h]
      exact Option.some_ne_none _
    · dsimp only at hi
      rw [hmd, hI.int] at hi
      cases hi
  rcases key.elim with ⟨mp0, h4, _⟩ | ⟨e, _, h⟩
  swap
  · exact h.elim
  obtain ⟨s, hs0⟩ : ∃ s, x.mapper.core.par = some s :=
    Option.ne_none_iff_exists'.1 (hs.parEx hI.analog hI.par)
  have hc0 : CoreShape E cfg.noPar { x.mapper.core with gd := gd } :=
    ⟨hs.core.fixed.imp fun c0 hc => ⟨hc.1, ⟨hc.2.1, hc.2.2, hc.2.3, hc.2.4, hc.2.5, hc.2.6, hc.2.7, hc.2.8⟩⟩, ⟨hgs.p, hgs.m, hgs.sumW⟩, ⟨hia.p, hia.m, hia.pO, hia.mO⟩, hs.core.par⟩
  have hia' : IaShape cfg.noPar mp0.core.ia :=
    ((sat_aWrite lax_true hc0 (Fits.mk' fun h => absurd trivial h)
      ⟨fun h => absurd trivial h, fun h => absurd trivial h⟩).of_ok h4).1.ia
  have hsd := hs.core.par s hs0
  have ht := runs_tuned hr s hs0
  have hR : cfg.M ≤ cfg.R := by
    unfold Cfg.R; exact Nat.le_mul_of_pos_right _ hS
  have hpI : (firstArray cfg.mode mp0.core.ia).Is cfg.R cfg.N := by
    unfold firstArray; split
    · exact hia'.m
    · exact hia'.p
  have hqI : (secondArray cfg.mode mp0.core.ia).Is cfg.R cfg.N := by
    unfold secondArray; split
    · exact hia'.p
    · exact hia'.m
  have hset := setConductance_ok (E := E) (cfg := cfg) (s := s) (A := firstArray cfg.mode mp0.core.ia)
    (B := secondOpt cfg.mode mp0.core.ia) (q := secondArray cfg.mode mp0.core.ia) (m := m * cfg.S) (n := n)
    (by rw [hsd.2.2]; exact ht.2.2)
    (by
      unfold secondOpt
      rw [hsd.2.2]
      split
      · next h1 => exact Or.inr ⟨rfl, h1⟩
      · exact Or.inl rfl)
    (by rw [ht.2.1]; exact hI.read.ne) (by rw [ht.1]; exact hI.wire.ne') (Nat.le_mul_of_pos_right _ hS)
    (by rw [hsd.1, hpI.1]; exact hR) (by rw [hsd.2.1, hpI.2])
    (by rw [hqI.1]; unfold Cfg.R; exact Nat.mul_pos hM0 hS) (by rw [hsd.1, hqI.1]; exact hR) (by rw [hsd.2.1, hqI.2])
    (by rw [hsd.1]; exact hm) (by rw [hsd.2.2, hsd.2.1, lines_int hI.int, Nat.mul_one]; exact hd.2.1) (by rw [hsd.2.1]; exact hN)
  obtain ⟨mp', h5⟩ := aWrite_push_int (mp := { x.mapper with core := { x.mapper.core with gd := gd } }) hI.int hmd h4
    (par := some _) (by
      unfold pushSolver
      rw [if_pos hI.par]
      dsimp only
      rw [hs0]
      dsimp only
      rw [hset, ok_bind])
  unfold xWrite
  rw [h1, ok_bind, h3, if_neg (by simp [hI.analog])]
  exact ⟨_, by rw [h5, ok_bind]⟩

/-! ## Sessions -/

/-- Legal calls return, and every answer is within the bound. -/
theorem exec_wired_int (hE : ExactArith E) (hok : CfgOk cfg) (hI : ResistiveInt cfg) (hM : 0 < cfg.M) (hN : 0 < cfg.N)
    (hgcc : cfg.mode = .iOffsWDiff → E.strict = false) {ops : List Op} (hr : Runs E cfg h x) (hh : HistOk cfg w h)
    (hl : LegalOps cfg w h ops) (hP : AllPlacedInt cfg h ops) (hC : AllWireRoom cfg rg h ops) :
    ∃ x' rs, exec E cfg x ops = .ok (x', rs) ∧ AnswersBy (WireIntWithin cfg rg) h ops rs := by
  induction ops generalizing h x with
  | nil => exact ⟨x, [], rfl, .nil⟩
  | cons op ops ih =>
    have hP2 : ∀ mat m n, Op.write mat m n ∈ ops → m * cfg.split.length ≤ cfg.M := fun a b c ho =>
      hP.2 a b c (List.mem_cons_of_mem _ ho)
    cases op with
    | write mat m n =>
      obtain ⟨k1, k2⟩ := hl
      obtain ⟨x1, hx1⟩ := xWrite_total_wi hE hok hI hM hN hr k1.dims k1.buf k1.vals k1.sums
        (hP.2 mat m n List.mem_cons_self)
      obtain ⟨x', rs, h3, h4⟩ := ih (.write hr hx1) (hh.write k1) k2 ⟨hP.1, hP2⟩ hC
      exact ⟨x', rs, by rw [exec, hx1, ok_bind, h3], .write h4⟩
    | mvm res vec mat m n l =>
      obtain ⟨k1, k2⟩ := hl
      obtain ⟨x1, r1, hx1, hG⟩ := mvm_wired_int (mat := mat) hE hok hI hM hN hgcc hr hP.1.1 (legal_of hh k1) k1.dims
        (fun hk i _ => sums_of hr hh k1 hk i) k1.vecBuf k1.resBuf k1.vals hC.1
      obtain ⟨x', rs, h3, h4⟩ := ih (.mvm hr hx1) hh.mvm k2 ⟨hP.1.2, hP2⟩ hC.2
      refine ⟨x', r1 :: rs, ?_, .mvm hG h4⟩
      rw [exec, hx1, ok_bind]
      dsimp only
      rw [h3, ok_bind]

theorem answersBy_wireIntAbsorbed {ops : List Op} {rs : List (Vec Int)}
    (ha : AnswersBy (WireIntWithin cfg rg) h ops rs) (hb : AllWireIntAbsorbed cfg rg h ops) : Answers h ops rs := by
  induction ha with
  | nil => exact .nil
  | write _ ih => exact .write (ih hb)
  | mvm a _ ih => exact .mvm (addsUpTo_zero a fun i hi => wireRow_absorbed hb.1 hi) (ih hb.2)

end

end Acs
