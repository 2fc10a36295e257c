import Verif.Lemmas.TwinXbar
import Verif.Lemmas.RdInv

/-! # Read disturb with equal rows -/

set_option linter.unusedSectionVars false

namespace Acs

open Spec

section
variable {K : Type} [Field K] [LinearOrder K] [IsStrictOrderedRing K] [FloorRing K]
variable {E : Env K} {cfg : Cfg K} {m n i i' : Nat} {mat res vec : Vec Int} {l : String} {x x' : Xbar K} {rd rd' : Rd K}

/-- The same in both rows. -/
def TwC {α : Type} (cfg : Cfg K) (i i' : Nat) (f : Nat → Nat → α) : Prop := i < cfg.R → ∀ j, j < cfg.N → f i j = f i' j

/-- Counters with equal rows. -/
structure RdTw (cfg : Cfg K) (i i' : Nat) (rd : Rd K) : Prop where
  cycP : TwC cfg i i' rd.cycP.get
  cycM : TwC cfg i i' rd.cycM.get
  rdP : TwC cfg i i' rd.rdP.get
  rdM : TwC cfg i i' rd.rdM.get

/-- State of a crossbar with equal rows; the counters matter if there is read disturb. -/
structure XTw (cfg : Cfg K) (i i' : Nat) (x : Xbar K) : Prop where
  core : CoreTw cfg i i' x.mapper.core
  rd : cfg.digitalOnly = false → cfg.readDisturb = true → ∀ rd, x.rd = some rd → RdTw cfg i i' rd

section
variable (hR : i < cfg.R ↔ i' < cfg.R)
include hR

theorem disturbed_tw {reads cyc : Nat → Nat → Nat} {g : Mat Int} {y y' : Mat K} (h1 : TwC cfg i i' reads)
    (h2 : TwC cfg i i' cyc) (hg : TwM (atRows i i') g) (hy : TwM (atRows i i') y)
    (h : Disturbed E cfg rd reads cyc g.get y.get y'.get) : TwM (atRows i i') y' := by
  rintro a b ⟨rfl, rfl⟩ j
  have ha := h a j
  have hb := h b j
  have eg := hg a b ⟨rfl, rfl⟩ j
  have ey := hy a b ⟨rfl, rfl⟩ j
  by_cases hc : a < cfg.R ∧ j < cfg.N ∧ g.get a j = 1
  · rw [if_pos hc] at ha
    rw [if_pos ⟨hR.1 hc.1, hc.2.1, by rw [← eg]; exact hc.2.2⟩] at hb
    obtain ⟨f, hf, e⟩ := ha
    obtain ⟨f', hf', e'⟩ := hb
    rw [h1 hc.1 j hc.2.1, h2 hc.1 j hc.2.1, hf', ok_inj] at hf
    rw [e, e', hf]
  · rw [if_neg hc] at ha
    rw [if_neg fun hb => hc ⟨hR.2 hb.1, hb.2.1, by rw [eg]; exact hb.2.2⟩] at hb
    rw [ha, hb, ey]

theorem refreshed_tw (hn : cfg.lrsNoise ≤ 0) {g : Mat Int} {A A' : Mat K} {c c' r r' : Mat Nat} (hg : TwM (atRows i i') g)
    (hA : TwM (atRows i i') A) (hc : TwC cfg i i' c.get) (hr : TwC cfg i i' r.get)
    (h : Refreshed E cfg g.get (fun a k => (A.get a k, c.get a k, r.get a k)) fun a k => (A'.get a k, c'.get a k, r'.get a k)) :
    TwM (atRows i i') A' ∧ TwC cfg i i' c'.get ∧ TwC cfg i i' r'.get := by
  have key : ∀ j, A'.get i j = A'.get i' j ∧ (i < cfg.R → j < cfg.N → c'.get i j = c'.get i' j ∧ r'.get i j = r'.get i' j) := by
    intro j
    have ha := h i j
    have hb := h i' j
    have eg := hg i i' ⟨rfl, rfl⟩ j
    have eA := hA i i' ⟨rfl, rfl⟩ j
    dsimp only at ha hb
    by_cases hx : i < cfg.R ∧ j < cfg.N ∧ g.get i j = 1 ∧ rdOutside E cfg (A.get i j) = true
    · rw [if_pos hx] at ha
      rw [if_pos ⟨hR.1 hx.1, hx.2.1, by rw [← eg]; exact hx.2.2.1, by rw [← eA]; exact hx.2.2.2⟩] at hb
      unfold Varied at ha hb
      rw [if_pos hn] at ha hb
      obtain ⟨a1, a2, a3⟩ := ha
      obtain ⟨b1, b2, b3⟩ := hb
      exact ⟨a1.trans b1.symm, fun _ _ => ⟨by rw [a2, b2, hc hx.1 j hx.2.1], a3.trans b3.symm⟩⟩
    · rw [if_neg hx] at ha
      rw [if_neg fun hb => hx ⟨hR.2 hb.1, hb.2.1, by rw [eg]; exact hb.2.2.1, by rw [eA]; exact hb.2.2.2⟩] at hb
      simp only [Prod.mk.injEq] at ha hb
      obtain ⟨a1, a2, a3⟩ := ha
      obtain ⟨b1, b2, b3⟩ := hb
      exact ⟨by rw [a1, b1, eA], fun h1 h2 => ⟨by rw [a2, b2, hc h1 j h2], by rw [a3, b3, hr h1 j h2]⟩⟩
  refine ⟨?_, fun h1 j h2 => ((key j).2 h1 h2).1, fun h1 j h2 => ((key j).2 h1 h2).2⟩
  rintro a b ⟨rfl, rfl⟩ j
  exact (key j).1

theorem updated_tw (hi : cfg.mode.isInt = false) {c c' : Core K} {rp rm : Nat → Nat → Nat} (hc : CoreTw cfg i i' c)
    (h1 : TwC cfg i i' rp) (h2 : TwC cfg i i' rm) (hr : RdTw cfg i i' rd) (h : Updated E cfg rd rp rm c c') :
    CoreTw cfg i i' c' := by
  obtain ⟨hg, hia, hp⟩ := hc
  have ec := h.frame
  have k : IaTw (atRows i i') c'.ia := by
    rw [ofRows_non hi] at hg hia
    refine ⟨disturbed_tw hR h1 hr.cycP hg.p hia.p h.p, ?_, by rw [h.pO]; exact hia.pO, by rw [h.mO]; exact hia.mO⟩
    cases hd : c.isDiff with
    | true => exact disturbed_tw hR h2 hr.cycM hg.m hia.m (h.m hd)
    | false => rw [h.m' hd]; exact hia.m
  refine ⟨by rw [ec]; exact hg, by rw [ofRows_non hi]; exact k, by rw [ec]; exact hp⟩

theorem cellsRefreshed_tw (hi : cfg.mode.isInt = false) (hn : cfg.lrsNoise ≤ 0) {c c' : Core K} (hc : CoreTw cfg i i' c)
    (hr : RdTw cfg i i' rd) (h : CellsRefreshed E cfg c rd c' rd') : CoreTw cfg i i' c' ∧ RdTw cfg i i' rd' := by
  obtain ⟨hg, hia, hp⟩ := hc
  have ec := h.frame
  rw [ofRows_non hi] at hg hia
  obtain ⟨p1, p2, p3⟩ := refreshed_tw hR hn hg.p hia.p hr.cycP hr.rdP h.p
  have q : TwM (atRows i i') c'.ia.m ∧ TwC cfg i i' rd'.cycM.get ∧ TwC cfg i i' rd'.rdM.get := by
    cases hd : c.isDiff with
    | true => exact refreshed_tw hR hn hg.m hia.m hr.cycM hr.rdM (h.m hd)
    | false =>
      obtain ⟨e1, e2, e3⟩ := h.m' hd
      rw [e1, e2, e3]
      exact ⟨hia.m, hr.cycM, hr.rdM⟩
  refine ⟨⟨by rw [ec, ofRows_non hi]; exact hg, ?_, by rw [ec]; exact hp⟩, ⟨p2, q.2.1, p3, q.2.2⟩⟩
  rw [ofRows_non hi]
  exact ⟨p1, q.1, by rw [h.pO]; exact hia.pO, by rw [h.mO]; exact hia.mO⟩

theorem rdStep_tw (hi : cfg.mode.isInt = false) (hn : cfg.hrsNoise ≤ 0 ∧ cfg.lrsNoise ≤ 0) (hM : i < cfg.M ↔ i' < cfg.M)
    (hS : cfg.strategy = .cellBased → (i < m * cfg.S ↔ i' < m * cfg.S)) (hs : CoreShape E cfg x.mapper.core)
    (hsr : RdShape cfg rd) (hx : x.rd = some rd) (hc : CoreTw cfg i i' x.mapper.core) (hr : RdTw cfg i i' rd)
    (h : rdStep E cfg x m n = .ok x') : CoreTw cfg i i' x'.mapper.core ∧ ∀ rd', x'.rd = some rd' → RdTw cfg i i' rd' := by
  have hcon : TwC cfg i i' fun _ _ => x.consec := fun _ _ _ => rfl
  cases hst : cfg.strategy with
  | off =>
    obtain ⟨-, -, -, rd', e, e', h1, h2⟩ := rdStep_off hsr hx hst h
    refine ⟨?_, fun rd2 h3 => ?_⟩
    · by_cases hu : x.consec % cfg.updFreq = 0
      · exact updated_tw hR hi hc hcon hcon hr (h1 hu)
      · rw [h2 hu]; exact hc
    · rw [e] at h3
      cases h3
      rw [e']
      exact ⟨hr.cycP, hr.cycM, hr.rdP, hr.rdM⟩
  | software =>
    obtain ⟨-, h1, h2⟩ := rdStep_software hsr hx hst h
    by_cases hu : x.consec % cfg.updFreq = 0
    · obtain ⟨y, rd1, -, -, hy, e1, -, hup, k1, k2⟩ := h2 hu
      have hcy := updated_tw hR hi hc hcon hcon hr hup
      have hr1 : RdTw cfg i i' rd1 := by rw [e1]; exact ⟨hr.cycP, hr.cycM, hr.rdP, hr.rdM⟩
      cases hck : rdCheckSoftware E cfg rd x.consec (x.writes + x.refX) with
      | false =>
        rw [k1 hck]
        refine ⟨hcy, fun rd' h3 => ?_⟩
        rw [hy] at h3
        cases h3
        exact hr1
      | true =>
        obtain ⟨rd', W⟩ := k2 hck
        refine ⟨(tw_aWrite hcy (coreShape_mode (hup.shape hs)) hM (fun h => by rw [hi] at h; cases h) fun _ => hn).of_ok W.prog,
          fun rd2 h3 => ?_⟩
        rw [W.has] at h3
        cases h3
        have hg := hcy.gd
        rw [ofRows_non hi] at hg
        have e := W.rdFrame
        refine ⟨fun h1 j h2 => ?_, fun h1 j h2 => ?_, by rw [e]; exact hr1.rdP, by rw [e]; exact hr1.rdM⟩
        · rw [W.cycP _ _ h1 h2, W.cycP _ _ (hR.1 h1) h2, hr1.cycP h1 j h2, hg.p i i' ⟨rfl, rfl⟩ j]
        · rw [W.cycM _ _ h1 h2, W.cycM _ _ (hR.1 h1) h2, hr1.cycM h1 j h2, hg.m i i' ⟨rfl, rfl⟩ j]
    · rw [h1 hu]
      refine ⟨hc, fun rd' h3 => ?_⟩
      rw [hx] at h3
      cases h3
      exact hr
  | cellBased =>
    obtain ⟨-, -, rd1, rd', e, hrd1, h1, h2⟩ := rdStep_cell hsr hs hx hst h
    obtain ⟨u1, u2, u3⟩ := updateReads_inv hrd1
    have hS := hS hst
    have hr1 : RdTw cfg i i' rd1 := by
      refine ⟨by rw [u1]; exact hr.cycP, by rw [u1]; exact hr.cycM, fun h1 j h2 => ?_, fun h1 j h2 => ?_⟩
      · simp only [u2, hr.rdP h1 j h2, hS]
      · simp only [u3, hr.rdM h1 j h2, hS]
    have fin : CoreTw cfg i i' x'.mapper.core ∧ RdTw cfg i i' rd' := by
      by_cases hu : x.consec % cfg.updFreq = 0
      · obtain ⟨c1, rd2, e2, hup, href⟩ := h2 hu
        have hc1 := updated_tw hR hi hc hr1.rdP hr1.rdM hr1 hup
        exact cellsRefreshed_tw hR hi hn.2 hc1 (by rw [e2]; exact ⟨hr1.cycP, hr1.cycM, hr1.rdP, hr1.rdM⟩) href
      · obtain ⟨k1, k2⟩ := h1 hu
        rw [k1, k2]
        exact ⟨hc, hr1⟩
    refine ⟨fin.1, fun rd2 h3 => ?_⟩
    rw [e] at h3
    cases h3
    exact fin.2

end

section
variable (he : EvenCells cfg) (hR : i < cfg.R ↔ i' < cfg.R) (hM : i < cfg.M ↔ i' < cfg.M)
include he hR

theorem evenCells_rd (hd : cfg.digitalOnly = false) (hrd : cfg.readDisturb = true) :
    cfg.mode.isInt = false ∧ (cfg.hrsNoise ≤ 0 ∧ cfg.lrsNoise ≤ 0) ∧ (cfg.strategy = .cellBased → cfg.S ≤ 1) := by
  rcases he with h | h
  · rw [hd] at h; cases h
  · cases hi : cfg.mode.isInt with
    | true => rw [hi, if_pos rfl] at h; rw [h.2] at hrd; cases hrd
    | false => rw [hi] at h; exact ⟨rfl, ⟨h.1, h.2.1⟩, h.2.2 hrd⟩

theorem tw_write (h : XTw cfg i i' x) (hs : Shape E cfg x) (hw : TwW i i' m n mat)
    (hx : xWrite E cfg x mat m n = .ok x') : XTw cfg i i' x' := by
  have hc := (tw_xWrite he h.core hs hw).of_ok hx
  refine ⟨hc, fun hd hrd rd' hr' => ?_⟩
  obtain ⟨hi, -, -⟩ := evenCells_rd he hR hd hrd
  obtain ⟨rd, hrd0, -⟩ := hs.rd hrd
  obtain ⟨rd2, e, e', k1, k2, k3⟩ := xWrite_rd hs hrd hrd0 hx
  rw [e] at hr'
  cases hr'
  have hr := h.rd hd hrd rd hrd0
  have g1 := h.core.gd
  have g2 := hc.gd
  rw [ofRows_non hi] at g1 g2
  have hq : TwC cfg i i' rd'.rdP.get ∧ TwC cfg i i' rd'.rdM.get := by
    by_cases hst : cfg.strategy = .cellBased
    · refine ⟨fun h1 j h2 => ?_, fun h1 j h2 => ?_⟩
      · rw [(k2 hst _ _ h1 h2).1, (k2 hst _ _ (hR.1 h1) h2).1]
      · rw [(k2 hst _ _ h1 h2).2, (k2 hst _ _ (hR.1 h1) h2).2]
    · rw [(k3 hst).1, (k3 hst).2]
      exact ⟨hr.rdP, hr.rdM⟩
  refine ⟨fun h1 j h2 => ?_, fun h1 j h2 => ?_, hq.1, hq.2⟩
  · rw [(k1 _ _ h1 h2).1, (k1 _ _ (hR.1 h1) h2).1, hr.cycP h1 j h2, g1.p i i' ⟨rfl, rfl⟩ j, g2.p i i' ⟨rfl, rfl⟩ j]
  · rw [(k1 _ _ h1 h2).2, (k1 _ _ (hR.1 h1) h2).2, hr.cycM h1 j h2, g1.m i i' ⟨rfl, rfl⟩ j, g2.m i i' ⟨rfl, rfl⟩ j]

theorem mvmDone_tw (hd : cfg.digitalOnly = false) {y : Xbar K} (h : CoreTw cfg i i' x.mapper.core) (hm : i < m ↔ i' < m)
    (hy : MvmDone E cfg x m n y) : CoreTw cfg i i' y.mapper.core := by
  cases hc : cfg.c2c with
  | false => rw [hy.same hc]; exact h
  | true =>
    have hi : cfg.mode.isInt = false := by
      cases hi : cfg.mode.isInt with
      | false => rfl
      | true =>
        rcases he with h | h
        · rw [hd] at h; cases h
        · rw [hi, if_pos rfl] at h; rw [h.1] at hc; cases hc
    obtain ⟨hg, hia, hp⟩ := h
    have ec := hy.fixed
    have ia : IaTw (atRows i i') y.mapper.core.ia := by
      rw [ofRows_non hi] at hia
      have key : ∀ j, (y.mapper.core.ia.p.get i j, y.mapper.core.ia.m.get i j) =
          (y.mapper.core.ia.p.get i' j, y.mapper.core.ia.m.get i' j) := by
        intro j
        rw [hy.ia, hy.ia, hia.p i i' ⟨rfl, rfl⟩ j, hia.m i i' ⟨rfl, rfl⟩ j, hia.pO i i' ⟨rfl, rfl⟩ j, hia.mO i i' ⟨rfl, rfl⟩ j]
        simp only [hm]
      refine ⟨?_, ?_, by rw [hy.pO]; exact hia.pO, by rw [hy.mO]; exact hia.mO⟩
      · rintro a b ⟨rfl, rfl⟩ j
        exact (Prod.mk.inj (key j)).1
      · rintro a b ⟨rfl, rfl⟩ j
        exact (Prod.mk.inj (key j)).2
    exact ⟨by rw [ec]; exact hg, by rw [ofRows_non hi]; exact ia, by rw [ec]; exact hp⟩

include hM

theorem tw_mvm {r : Vec Int} (h : XTw cfg i i' x) (hs : Shape E cfg x) (hm : i < m ↔ i' < m)
    (hx : xMvm E cfg x res vec mat m n l = .ok (x', r)) : XTw cfg i i' x' := by
  cases hd : cfg.digitalOnly with
  | true =>
    refine ⟨?_, fun h => by rw [hd] at h; cases h⟩
    unfold xMvm at hx
    dsimp only at hx
    rw [if_pos hd, bind_eq_ok] at hx
    obtain ⟨q, -, hx⟩ := hx
    rw [ok_inj, Prod.mk.injEq] at hx
    rw [← hx.1]
    exact h.core
  | false =>
    obtain ⟨y, hy, h1⟩ := xMvm_done hs hd hx
    have hcy := mvmDone_tw he hR hd h.core hm hy
    cases hrd : cfg.readDisturb with
    | false =>
      rw [hrd, if_neg (by simp), ok_inj] at h1
      rw [← h1]
      exact ⟨hcy, fun _ h => by rw [hrd] at h; cases h⟩
    | true =>
      rw [hrd, if_pos rfl] at h1
      obtain ⟨hi, hn, hS⟩ := evenCells_rd he hR hd hrd
      obtain ⟨rd, hrd0, hsr⟩ := hs.rd hrd
      have hS' : cfg.strategy = .cellBased → (i < m * cfg.S ↔ i' < m * cfg.S) := fun hst => by
        rcases Nat.le_one_iff_eq_zero_or_eq_one.1 (hS hst) with e | e
        · rw [e]; simp
        · rw [e, Nat.mul_one]; exact hm
      obtain ⟨k1, k2⟩ := rdStep_tw hR hi hn hM hS' hy.shape hsr (hy.rd.trans hrd0) hcy (h.rd hd hrd rd hrd0) h1
      exact ⟨k1, fun _ _ => k2⟩

theorem tw_exec {ops : List Op} (ho : ∀ op ∈ ops, EqualRows i i' op) (h : XTw cfg i i' x) (hs : Shape E cfg x) :
    Ok' (exec E cfg x ops) fun r => EqualEntries i i' r.2 := by
  induction ops generalizing x with
  | nil => exact fun r hr => absurd hr List.not_mem_nil
  | cons op ops ih =>
    have h1 := ho op List.mem_cons_self
    have h2 := fun op h => ho op (List.mem_cons_of_mem _ h)
    cases op with
    | write mat m n =>
      refine Sat.intro_ok fun r hr => ?_
      obtain ⟨y, h3, h4⟩ := bind_eq_ok.1 hr
      exact (ih h2 (tw_write he hR h hs h1 h3) (xWrite_shape hs h3)).of_ok h4
    | mvm res vec mat m n l =>
      refine Sat.intro_ok fun r hr => ?_
      obtain ⟨y, h3, h4⟩ := bind_eq_ok.1 hr
      obtain ⟨z, h5, h6⟩ := bind_eq_ok.1 h4
      have h7 := tw_mvm he hR hM h hs h1.1 h3
      have h8 := (tw_xMvm he h.core hs h1.1 fun a b hab ha hb => by
        obtain ⟨rfl, rfl⟩ := hab
        exact h1.2 ha hb).of_ok h3
      have h9 := (ih h2 h7 (xMvm_shape hs h3)).of_ok h5
      rw [← ok_inj.1 h6]
      intro v hv ha hb
      rcases List.mem_cons.1 hv with rfl | hv
      · exact h8 i i' ⟨rfl, rfl⟩ ha hb
      · exact h9 v hv ha hb

end

/-- A fresh crossbar. -/
theorem tw_fresh {rng : Nat} {hs : List (String × Hist K)} (hM : i < cfg.M ↔ i' < cfg.M) (h : mkXbar E cfg rng hs = .ok x) :
    XTw cfg i i' x := by
  refine ⟨tw_mkXbar hM h, fun _ hrd rd hr => ?_⟩
  obtain ⟨-, -, h1, -⟩ := mkXbar_inv h
  unfold optRd at h1
  rw [hrd, if_pos rfl, bind_eq_ok] at h1
  obtain ⟨rd0, h1, h2⟩ := h1
  rw [ok_inj, hr] at h2
  cases h2
  unfold mkRd at h1
  rw [bind_eq_ok] at h1
  obtain ⟨p, -, h1⟩ := h1
  rw [bind_eq_ok] at h1
  obtain ⟨e, -, h1⟩ := h1
  rw [← ok_inj.1 h1]
  exact ⟨fun _ _ _ => rfl, fun _ _ _ => rfl, fun _ _ _ => rfl, fun _ _ _ => rfl⟩

end

end Acs
