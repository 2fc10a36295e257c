import Verif.Lemmas.ApiInv

/-! # Histories of calls across the interface -/

set_option linter.unusedSectionVars false

namespace Acs

open Spec Finset

section
variable {K : Type} [Field K] [LinearOrder K] [IsStrictOrderedRing K] [FloorRing K]
variable {E : Env K} {j : Json K} {w w' : World K} {hs : List Op}
variable {c d : Cfg K} {x x' : Xbar K} {m n : Nat} {mat vec res r : Vec Int} {l : String}

/-- An update with a structural change builds a new crossbar. -/
theorem update_rebuild (hc : ∃ k, structural k ∧ Changes E w.data j k) (hk : DistinctKeys j)
    (h' : updateConfig E (.good j) w = .ok (w', 0)) :
    ∃ x, w'.xbar = some x ∧ Fresh E w'.cfg x ∧ applyConfig E w'.data w.cfg = .ok w'.cfg := by
  rcases updateConfig_inv h' with ⟨_, h2, _⟩ | ⟨x, j', q, hx, hj, _, hq, h2⟩
  · cases h2
  · cases hj
    obtain ⟨_, _, _, a4, a5, a6, _⟩ := updateCfg_inv hk hq
    have h5 := a5.2 hc
    have h4 := a4.2 ⟨hc.choose, hc.choose_spec.2⟩
    rcases h2 with ⟨_, _, x', h6, _, h7, h8, h9⟩ | ⟨h3, _⟩
    · exact ⟨x', h7, ⟨_, _, by rw [h8]; exact h6⟩, by rw [h8, h9]; exact a6 h4⟩
    · rw [h4, h5] at h3; cases h3

/-- An update without structural changes keeps it. -/
theorem update_keep (hc : ∀ k, structural k → ¬Changes E w.data j k) (hk : DistinctKeys j)
    (h' : updateConfig E (.good j) w = .ok (w', 0)) :
    w'.xbar = w.xbar ∧ ∃ q, updateCfg E j w = .ok q ∧ (q.2.1 && q.2.2) = false ∧ w' = q.1 := by
  rcases updateConfig_inv h' with ⟨_, h2, _⟩ | ⟨x, j', q, hx, hj, _, hq, h2⟩
  · cases h2
  · cases hj
    obtain ⟨a1, _, _, _, a5, _, _⟩ := updateCfg_inv hk hq
    rcases h2 with ⟨_, h5, _⟩ | ⟨h3, rfl⟩
    · obtain ⟨k, h6, h7⟩ := a5.1 h5
      exact absurd h7 (hc k h6)
    · exact ⟨a1, q, hq, h3, rfl⟩

theorem settled_runs (h : Settled E hs w) : ∃ x, w.xbar = some x ∧ Runs E w.cfg hs x := by
  induction h with
  | load h =>
    obtain ⟨_, x, h2, h3, _⟩ := setConfig_inv h
    exact ⟨x, h2, .init h3⟩
  | rebuild hc hk h' =>
    obtain ⟨x, h1, ⟨_, _, h2⟩, _⟩ := update_rebuild hc hk h'
    exact ⟨x, h1, .init h2⟩
  | write _ hm h' ih =>
    obtain ⟨x, hx, hr⟩ := ih
    rcases cpyMtrx_inv h' with ⟨_, h2, _⟩ | ⟨y, y', h1, _, _, h2, rfl⟩
    · cases h2
    · rw [hx] at h1
      cases h1
      rw [toSize_cast hm.1, toSize_cast hm.2] at h2
      exact ⟨y', rfl, .write hr h2⟩
  | mvm _ hm h' ih =>
    obtain ⟨x, hx, hr⟩ := ih
    rcases exeMvm_inv h' with ⟨_, _, h2, _⟩ | ⟨y, y', h1, _, _, h2, rfl⟩
    · cases h2
    · rw [hx] at h1
      cases h1
      rw [toSize_cast hm.1, toSize_cast hm.2] at h2
      exact ⟨y', rfl, .mvm hr h2⟩

theorem SameStruct.modeEq (h : SameStruct c d) : d.mode = c.mode := by
  unfold SameStruct at h
  rw [h]

theorem SameStruct.dWriteGd (h : SameStruct c d) (q : Core K) :
    dWriteGd E d q mat m n = dWriteGd E c q mat m n := by
  unfold SameStruct at h
  rw [h]
  rfl

theorem SameStruct.cells (h : SameStruct c d) {gd : Gd} {L : Nat → Nat → Option Int}
    (hc : Cells c gd L) : Cells d gd L := by
  unfold SameStruct at h
  rw [h]
  exact ⟨hc.p, hc.m⟩

/-- What a session knows about its crossbar. -/
structure Served (E : Env K) (hs : List Op) (w : World K) (x : Xbar K) : Prop where
  xbar : w.xbar = some x
  shape : w.cfg.digitalOnly = true → Shape E w.cfg x
  cells : ∀ d, SameStruct w.cfg d → CfgOk d → Cells d x.mapper.core.gd (lastWrite hs)
  sums : ∀ k, hasSums w.cfg.mode = true → WidthIs k hs → ∀ i,
    x.mapper.core.gd.sumW.get i = ∑ j ∈ range k, val (lastWrite hs) i j

theorem served_init {rng : Nat} {hists : List (String × Hist K)} (hx : w.xbar = some x)
    (h : mkXbar E w.cfg rng hists = .ok x) : Served E [] w x := by
  refine ⟨hx, fun _ => mkXbar_shape h, fun d hd hok => ?_, fun k hk hw i =>
    runs_sums (.init h) hk hw i⟩
  exact hd.cells (by
    rw [(mkCore_inv (mkXbar_inv h).1).2.2.1]
    exact cells_init w.cfg)

theorem session_inv (h : Session E hs w) : Inv E w ∧ ∃ x, Served E hs w x := by
  induction h with
  | load h =>
    obtain ⟨_, x, h2, h3, h4⟩ := setConfig_inv h
    refine ⟨⟨?_, fun y hy => ?_⟩, x, served_init h2 h3⟩
    · rcases h4 with ⟨h5, _⟩ | ⟨j, _, h5, h6⟩
      · cases h5
      · exact Or.inr ⟨_, by rw [h5]; exact h6⟩
    · rw [h2] at hy
      cases hy
      exact (mkXbar_shape h3).toX
  | rebuild _ hc hk h' ih =>
    obtain ⟨x, h1, ⟨_, _, h2⟩, _⟩ := update_rebuild hc hk h'
    exact ⟨inv_update ih.1 h', x, served_init h1 h2⟩
  | @keep hs w w' j _ hc hk h' ih =>
    obtain ⟨hi, x, hx⟩ := ih
    obtain ⟨h1, q, h2, h3, rfl⟩ := update_keep hc hk h'
    obtain ⟨h4, _⟩ := keep_struct hi.loaded h2 h3
    refine ⟨inv_update hi h', x, h1.trans hx.xbar, fun hd => ?_, fun d hd hok => ?_, fun k hk' hw => ?_⟩
    · rw [h4.digEq] at hd
      refine h4.shape ?_ (hx.shape hd)
      obtain ⟨_, _, _, a4, a5, a6, _⟩ := updateCfg_agree h2
      cases hm : q.2.1
      · rw [a5 hm]
      · have hr : q.2.2 = false := by rw [hm] at h3; simpa using h3
        rcases hi.loaded with ⟨_, e⟩ | ⟨c, e⟩
        · exact absurd ((a6 hr "M" (structural_of (by decide))).trans (by rw [e]; rfl))
            (apply_find (a4 hm))
        · exact ((apply_again (a6 hr) e (a4 hm)).2.1 hd).1
    · exact hx.cells d (h4.trans hd) hok
    · exact hx.sums k (by rw [← h4.modeEq]; exact hk') hw
  | @write hs w w' mat m n _ hm h' ih =>
    obtain ⟨hi, x, hx⟩ := ih
    rcases cpyMtrx_inv h' with ⟨_, h2, _⟩ | ⟨y, y', h1, _, _, h2, rfl⟩
    · cases h2
    · rw [hx.xbar] at h1
      cases h1
      rw [toSize_cast hm.1, toSize_cast hm.2] at h2
      have hxs := hi.xbar x hx.xbar
      refine ⟨⟨hi.loaded, fun z hz => ?_⟩, y', rfl, fun hd => xWrite_shape (hx.shape hd) h2,
        fun d hd hok => ?_, fun k hk hw i => ?_⟩
      · cases hz
        exact xWrite_x hxs h2
      · exact dWriteGd_cells hok (hd.core hxs.core) (hx.cells d hd hok)
          ((hd.dWriteGd _).trans (xWrite_frame h2).1)
      · have hn' : n = k := hw _ (List.mem_cons_self ..)
        subst hn'
        rw [dWriteGd_sums hxs.core hk (xWrite_frame h2).1, Vec.over_get]
        split
        · next hi =>
          refine sum_congr rfl fun j hj => ?_
          simp only [val, lastWrite, entry]
          rw [if_pos ⟨hi, mem_range.1 hj⟩]; rfl
        · next hi =>
          rw [hx.sums n hk fun op hop => hw op (List.mem_cons_of_mem _ hop)]
          refine sum_congr rfl fun j hj => ?_
          simp only [val, lastWrite]
          rw [if_neg (by omega)]
  | @mvm hs w w' res vec mat r m n l _ hm h' ih =>
    obtain ⟨hi, x, hx⟩ := ih
    rcases exeMvm_inv h' with ⟨_, _, h2, _⟩ | ⟨y, y', h1, _, _, h2, rfl⟩
    · cases h2
    · rw [hx.xbar] at h1
      cases h1
      rw [toSize_cast hm.1, toSize_cast hm.2] at h2
      have hxs := hi.xbar x hx.xbar
      refine ⟨⟨hi.loaded, fun z hz => ?_⟩, y', rfl, fun hd => xMvm_shape (hx.shape hd) h2,
        fun d hd hok => ?_, fun k hk hw i => ?_⟩
      · cases hz
        exact xMvm_x hxs h2
      · rw [(xMvm_frame h2).1]
        exact hx.cells d hd hok
      · rw [(xMvm_frame h2).1]
        exact hx.sums k hk (fun op hop => hw op (List.mem_cons_of_mem _ hop)) i

theorem not_tooBig (h : Accepted w.cfg m n) (hm : m < 2147483648 ∧ n < 2147483648) :
    ¬tooBig w (m : Int) (n : Int) := by
  unfold tooBig
  rw [toU32_cast hm.1, toU32_cast hm.2]
  have := h.1
  have := h.2.1
  omega

/-- A multiplication through the interface on a digital crossbar. -/
theorem session_mvm (h : Session E hs w) (hok : CfgOk w.cfg)
    (hgcc : shiftsSigned w.cfg.mode → E.strict = false) (hdo : w.cfg.digitalOnly = true) {k : Nat}
    (hh : HistOk w.cfg k hs) (hl : LegalMvm w.cfg k hs res vec m n)
    (hm : m < 2147483648 ∧ n < 2147483648) :
    ∃ w' r, exeMvm E res vec mat m n l w = .ok (w', r, 0) ∧ Adds r res (stored hs) vec m n := by
  obtain ⟨_, x, hx⟩ := session_inv h
  obtain ⟨x', r, h1, _, _, h2⟩ := xMvm_exact (L := lastWrite hs) (mat := mat) (l := l) hgcc hok
    (hx.shape hdo) hdo (hx.cells _ (SameStruct.refl _) hok)
    (fun i j hi hj => by
      obtain ⟨v, hv⟩ := Option.isSome_iff_exists.1 (hl.written i j hi hj)
      exact ⟨v, hv, hh.vals i j v hv⟩) hl.dims
    (fun hk i _ => by
      have hw := hl.width hk
      subst hw
      exact hx.sums n (hasSums_of_keeps hk) (hh.width hk) i) hl.vecBuf hl.resBuf hl.vals hl.room
  refine ⟨{ w with xbar := some x' }, r, ?_, h2⟩
  unfold exeMvm
  rw [hx.xbar]
  dsimp only
  rw [if_neg (not_tooBig hl.dims hm), toSize_cast hm.1, toSize_cast hm.2, h1]
  rfl

/-- A write through the interface on a digital crossbar. -/
theorem session_write (h : Session E hs w) (hok : CfgOk w.cfg) (hdo : w.cfg.digitalOnly = true)
    {k : Nat} (hl : LegalWrite w.cfg k mat m n) (hm : m < 2147483648 ∧ n < 2147483648) :
    ∃ w', cpyMtrx E mat m n w = .ok (w', 0) := by
  obtain ⟨_, x, hx⟩ := session_inv h
  obtain ⟨x', h1⟩ := xWrite_total hok (hx.shape hdo) hdo hl.dims hl.buf hl.vals hl.sums
  refine ⟨{ w with xbar := some x' }, ?_⟩
  unfold cpyMtrx
  rw [hx.xbar]
  dsimp only
  rw [if_neg (not_tooBig hl.dims hm), toSize_cast hm.1, toSize_cast hm.2, h1]
  rfl

end

end Acs
