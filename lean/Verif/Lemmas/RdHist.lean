import Verif.Lemmas.RdRuns

/-! # Counters and currents of all histories with read disturb -/

set_option linter.unusedSectionVars false

namespace Acs

open Spec

section
variable {K : Type} [Field K] [LinearOrder K] [IsStrictOrderedRing K] [FloorRing K]
variable {E : Env K} {cfg : Cfg K} {x x' : Xbar K} {rd rd' : Rd K} {t : List (Step K)} {h : List Op}
variable {mat vec res out : Vec Int} {m n r k : Nat} {l : String}

theorem cellOf_after (f : Int → Int) (i j : Nat) : cellOf f (lastWrite h i j) = cellAfter f h i j := by
  unfold cellOf cellAfter
  cases lastWrite h i j <;> rfl

theorem runs_gdP (hok : CfgOk cfg) (hr : Runs E cfg h x) (r k : Nat) : x.mapper.core.gd.p.get r k =
    cellAfter (fun w => encP cfg w (rowOf cfg r).2) h (rowOf cfg r).1 k := by
  rw [(runs_cells hok hr).p, cellOf_after]

theorem runs_gdM (hok : CfgOk cfg) (hr : Runs E cfg h x) (r k : Nat) : x.mapper.core.gd.m.get r k =
    cellAfter (fun w => encM cfg w (rowOf cfg r).2) h (rowOf cfg r).1 k := by
  rw [(runs_cells hok hr).m, cellOf_after]

/-! ## Counters -/

theorem traced_consec (ht : Traced E cfg t x) : x.consec = mvmsSinceRenewal t := by
  induction ht with
  | init h => exact (mkXbar_inv h).2.2.2.2.2.1
  | write _ h' ih => exact (xWrite_frame h').2.2.2.2.1
  | mvm ht h' ih =>
    unfold mvmsSinceRenewal
    dsimp only
    rcases xMvm_consec (runs_shape ht.runs) h' with ⟨h1, h2⟩ | ⟨_, _, _, _, h1, h2⟩
    · rw [if_neg fun h => h.2 h2, h1, ih]
    · rw [if_pos ⟨trivial, by dsimp only; rw [h2]; omega⟩, h1]

theorem traced_refX (ht : Traced E cfg t x) : x.refX = times softRefresh t := by
  induction ht with
  | init h => exact (mkXbar_inv h).2.2.2.2.2.2.1
  | write _ h' ih =>
    unfold times
    rw [if_neg fun h => h.1, (xWrite_frame h').2.2.2.2.2.1, ih]
    rfl
  | mvm ht h' ih =>
    unfold times
    rcases xMvm_consec (runs_shape ht.runs) h' with ⟨h1, h2⟩ | ⟨_, _, _, _, h1, h2⟩
    · rw [if_neg fun h => h.2 h2, h2, ih]; rfl
    · rw [if_pos ⟨trivial, by dsimp only; rw [h2]; omega⟩, h2, ih]

theorem runs_no_refX (hs : ¬(cfg.digitalOnly = false ∧ cfg.readDisturb = true ∧ cfg.strategy = .software))
    (hr : Runs E cfg h x) : x.refX = 0 ∧ x.consec = mvmsSinceWrite h := by
  induction hr with
  | init h => exact ⟨(mkXbar_inv h).2.2.2.2.2.2.1, (mkXbar_inv h).2.2.2.2.2.1⟩
  | write _ h' ih =>
    exact ⟨(xWrite_frame h').2.2.2.2.2.1.trans ih.1, (xWrite_frame h').2.2.2.2.1⟩
  | mvm hr h' ih =>
    rcases xMvm_consec (runs_shape hr) h' with ⟨h1, h2⟩ | ⟨a, b, c, _⟩
    · exact ⟨h2.trans ih.1, by rw [h1, ih.2]; rfl⟩
    · exact absurd ⟨a, b, c⟩ hs

theorem runs_consec_le (hr : Runs E cfg h x) : x.consec ≤ mvmsSinceWrite h ∧ x.refX ≤ mvmsIn h := by
  induction hr with
  | init h => rw [(mkXbar_inv h).2.2.2.2.2.2.1, (mkXbar_inv h).2.2.2.2.2.1]; exact ⟨le_refl _, le_refl _⟩
  | write _ h' ih =>
    rw [(xWrite_frame h').2.2.2.2.2.1, (xWrite_frame h').2.2.2.2.1]
    exact ⟨Nat.zero_le _, ih.2⟩
  | mvm hr h' ih =>
    unfold mvmsSinceWrite mvmsIn
    rcases xMvm_consec (runs_shape hr) h' with ⟨h1, h2⟩ | ⟨_, _, _, _, h1, h2⟩
    · rw [h1, h2]; omega
    · rw [h1, h2]; omega

/-! ## Cycle and read counters -/

theorem switched_write (f : Int → Int) (i j : Nat) : switched f (.write mat m n :: h) i j =
    switched f h i j +
      if cellAfter f h i j = 1 ∧ cellAfter f (.write mat m n :: h) i j = 0 then 1 else 0 := by
  show (if _ then _ else _) = _
  split <;> rfl

theorem switched_mvm (f : Int → Int) (i j : Nat) :
    switched f (.mvm res vec mat m n l :: h) i j = switched f h i j := rfl

open Classical in
theorem traced_cycles (hok : CfgOk cfg) (hrd : cfg.readDisturb = true) (ht : Traced E cfg t x)
    (hx : x.rd = some rd) (hr : r < cfg.R) (hk : k < cfg.N) :
    rd.cycP.get r k = switched (fun w => encP cfg w (rowOf cfg r).2) (calls t) (rowOf cfg r).1 k +
      times (fun s => RefreshP E cfg s r k) t ∧
    rd.cycM.get r k = switched (fun w => encM cfg w (rowOf cfg r).2) (calls t) (rowOf cfg r).1 k +
      times (fun s => cfg.mode.isDiff = true ∧ RefreshM E cfg s r k) t := by
  induction ht generalizing rd with
  | init h =>
    have h1 := (mkXbar_inv h).2.2.1
    unfold optRd at h1
    rw [if_pos hrd, bind_eq_ok] at h1
    obtain ⟨rd0, h2, h1⟩ := h1
    rw [ok_inj, hx, Option.some.injEq] at h1
    subst h1
    unfold mkRd at h2
    rw [bind_eq_ok] at h2
    obtain ⟨_, _, h2⟩ := h2
    rw [bind_eq_ok] at h2
    obtain ⟨_, _, h2⟩ := h2
    rw [ok_inj] at h2
    rw [← h2]
    exact ⟨rfl, rfl⟩
  | @write t x x' mat m n ht h' ih =>
    obtain ⟨rd0, hx0, _⟩ := (runs_shape ht.runs).rd hrd
    obtain ⟨rd', k1, _, k3, _⟩ := xWrite_rd (runs_shape ht.runs) hrd hx0 h'
    rw [hx, Option.some.injEq] at k1
    subst k1
    obtain ⟨i1, i2⟩ := ih hx0
    obtain ⟨c1, c2⟩ := k3 r k hr hk
    have n1 : ¬RefreshP E cfg ⟨.write mat m n, x, x'⟩ r k := fun ⟨_, _, h⟩ => h.2.1
    have n2 : ¬(cfg.mode.isDiff = true ∧ RefreshM E cfg ⟨.write mat m n, x, x'⟩ r k) :=
      fun ⟨_, _, _, h⟩ => h.2.1
    have hr' := Runs.write ht.runs h'
    unfold times
    rw [if_neg n1, if_neg n2, c1, c2, i1, i2, runs_gdP hok ht.runs, runs_gdP hok hr',
      runs_gdM hok ht.runs, runs_gdM hok hr']
    rw [show calls (⟨.write mat m n, x, x'⟩ :: t) = .write mat m n :: calls t from rfl, switched_write,
      switched_write]
    exact ⟨by omega, by omega⟩
  | @mvm t x x' res vec mat out m n l ht h' ih =>
    obtain ⟨rd0, hx0, _⟩ := (runs_shape ht.runs).rd hrd
    obtain ⟨rd', k1, k2⟩ := mvm_counted (runs_shape ht.runs) hrd hx0 h' hr hk
    rw [hx, Option.some.injEq] at k1
    subst k1
    obtain ⟨i1, i2⟩ := ih hx0
    unfold times
    rw [k2.cycP, k2.cycM, i1, i2]
    rw [show calls (⟨.mvm res vec mat m n l, x, x'⟩ :: t) = .mvm res vec mat m n l :: calls t from rfl]
    rw [switched_mvm, switched_mvm, Nat.add_assoc, Nat.add_assoc]
    exact ⟨by congr, by congr⟩

open Classical in
theorem traced_reads (hrd : cfg.readDisturb = true) (hdo : cfg.digitalOnly = false)
    (hst : cfg.strategy = .cellBased) (ht : Traced E cfg t x)
    (hx : x.rd = some rd) (hr : r < cfg.R) (hk : k < cfg.N) :
    rd.rdP.get r k = readsSince cfg (fun s => RefreshP E cfg s r k) r k t ∧
    (cfg.mode.isDiff = true → rd.rdM.get r k = readsSince cfg (fun s => RefreshM E cfg s r k) r k t) := by
  induction ht generalizing rd with
  | init h =>
    have h1 := (mkXbar_inv h).2.2.1
    unfold optRd at h1
    rw [if_pos hrd, bind_eq_ok] at h1
    obtain ⟨rd0, h2, h1⟩ := h1
    rw [ok_inj, hx, Option.some.injEq] at h1
    subst h1
    unfold mkRd at h2
    rw [bind_eq_ok] at h2
    obtain ⟨_, _, h2⟩ := h2
    rw [bind_eq_ok] at h2
    obtain ⟨_, _, h2⟩ := h2
    rw [ok_inj] at h2
    rw [← h2]
    exact ⟨rfl, fun _ => rfl⟩
  | @write t x x' mat m n ht h' ih =>
    obtain ⟨rd0, hx0, _⟩ := (runs_shape ht.runs).rd hrd
    obtain ⟨rd', k1, _, _, k4, _⟩ := xWrite_rd (runs_shape ht.runs) hrd hx0 h'
    rw [hx, Option.some.injEq] at k1
    subst k1
    exact ⟨(k4 hst r k hr hk).1, fun _ => (k4 hst r k hr hk).2⟩
  | @mvm t x x' res vec mat out m n l ht h' ih =>
    obtain ⟨rd0, hx0, _⟩ := (runs_shape ht.runs).rd hrd
    obtain ⟨rd', k1, k2⟩ := mvm_counted (runs_shape ht.runs) hrd hx0 h' hr hk
    rw [hx, Option.some.injEq] at k1
    subst k1
    obtain ⟨i1, i2⟩ := ih hx0
    unfold readsSince
    dsimp only
    refine ⟨?_, fun hd => ?_⟩
    · rw [k2.rdP hdo hst, i1]
    · rw [k2.rdM hdo hst hd, i2 hd]

theorem switched_le (f : Int → Int) (h : List Op) (i j : Nat) : switched f h i j ≤ writesIn h := by
  induction h with
  | nil => exact le_refl 0
  | cons op h ih =>
    cases op with
    | write mat m n => unfold switched writesIn; split <;> omega
    | mvm => exact ih

theorem times_mono {P Q : Step K → Prop} (hPQ : ∀ s ∈ t, P s → Q s) : times P t ≤ times Q t := by
  induction t with
  | nil => exact le_refl 0
  | cons s t ih =>
    have := ih fun s hs => hPQ s (List.mem_cons_of_mem _ hs)
    unfold times
    split
    · next h => rw [if_pos (hPQ s (List.mem_cons_self) h)]; omega
    · omega

/-- Without cell-based refreshes no cell was switched more often than the crossbar was programmed. -/
theorem cycles_le (hok : CfgOk cfg) (hrd : cfg.readDisturb = true) (hst : cfg.strategy ≠ .cellBased)
    (hR : Runs E cfg h x) (hx : x.rd = some rd) (hr : r < cfg.R) (hk : k < cfg.N) :
    rd.cycP.get r k ≤ x.writes + x.refX ∧ rd.cycM.get r k ≤ x.writes + x.refX := by
  obtain ⟨t, rfl, ht⟩ := runs_traced hR
  obtain ⟨h1, h2⟩ := traced_cycles hok hrd ht hx hr hk
  have h3 := traced_refX ht
  have h4 := (runs_counts hR).1
  have key : ∀ (s : Step K) g c q, RefreshOf E cfg s g c q r k → softRefresh s := by
    intro s g c q hf
    unfold RefreshOf at hf
    obtain ⟨_, h5, _, h6⟩ := hf
    cases hs : cfg.strategy
    · rw [hs] at h6; exact absurd h6 (by simp)
    · rw [hs] at h6; exact ⟨h5, h6⟩
    · exact absurd hs hst
  rw [h1, h2, h3, h4]
  exact ⟨Nat.add_le_add (switched_le ..) (times_mono fun s _ ⟨_, _, h⟩ => key s _ _ _ h),
    Nat.add_le_add (switched_le ..) (times_mono fun s _ ⟨_, _, _, h⟩ => key s _ _ _ h)⟩

/-! ## Currents -/

/-- A cell that was programmed to state `g`, or never programmed. -/
def Set (E : Env K) (cfg : Cfg K) (o : Option Int) (g : Int) (y : K) : Prop :=
  BinCell E cfg 0 g y ∨ (o = none ∧ y = cfg.hrs)

theorem binCell_state {g : Int} {y : K} {r : Nat} (h : BinCell E cfg r g y) : g = 0 ∨ g = 1 := by
  rcases h with ⟨h, _⟩ | ⟨h, _⟩
  · exact Or.inl h
  · exact Or.inr h

/-- The currents kept for the removal of variation, over any history. -/
structure OrigCur (E : Env K) (cfg : Cfg K) (x : Xbar K) (h : List Op) : Prop where
  p : ∀ r k, Set E cfg (lastWrite h r k) (x.mapper.core.gd.p.get r k) (x.mapper.core.ia.pO.get r k)
  m : cfg.mode ≠ .bnn3 ∧ cfg.mode ≠ .bnn4 → ∀ r k,
    Set E cfg (lastWrite h r k) (x.mapper.core.gd.m.get r k) (x.mapper.core.ia.mO.get r k)
  m' : cfg.mode = .bnn3 ∨ cfg.mode = .bnn4 → ∀ r k, x.mapper.core.ia.mO.get r k = cfg.hrs

theorem OrigCur.done {c : Core K} {h h' : List Op} (ho : OrigCur E cfg x h) (hmd : c.mode = cfg.mode)
    (hia : c.ia.pO = x.mapper.core.ia.pO ∧ c.ia.mO = x.mapper.core.ia.mO)
    (hgp : ∀ r k, ¬(r < m ∧ k < n) → c.gd.p.get r k = x.mapper.core.gd.p.get r k ∧
      c.gd.m.get r k = x.mapper.core.gd.m.get r k ∧ lastWrite h' r k = lastWrite h r k)
    (hgd : x'.mapper.core.gd = c.gd) (hb : BinDone E cfg c m n x'.mapper.core.ia) :
    OrigCur E cfg x' h' := by
  refine ⟨fun r k => ?_, fun hm r k => ?_, fun hm r k => ?_⟩
  · have := hb.p r k
    rw [hgd]
    split at this
    · dsimp only at this
      exact Or.inl (by rw [this.2]; exact this.1)
    · next hn =>
      have h1 := ho.p r k
      rw [Prod.mk.injEq] at this
      rw [this.2, hia.1, (hgp r k hn).1, (hgp r k hn).2.2]
      exact h1
  · have := hb.m (by rw [hmd]; exact hm) r k
    rw [hgd]
    split at this
    · dsimp only at this
      exact Or.inl (by rw [this.2]; exact this.1)
    · next hn =>
      have h1 := ho.m hm r k
      rw [Prod.mk.injEq] at this
      rw [this.2, hia.2, (hgp r k hn).2.1, (hgp r k hn).2.2]
      exact h1
  · rw [(hb.m' (by rw [hmd]; exact hm)).2, hia.2]
    exact ho.m' hm r k

/-- Cells outside a written block keep their state. -/
theorem write_outside (hok : CfgOk cfg) (hi : cfg.mode.isInt = false) (hr : Runs E cfg h x)
    (hw : xWrite E cfg x mat m n = .ok x') (r k : Nat) (hrk : ¬(r < m ∧ k < n)) :
    x'.mapper.core.gd.p.get r k = x.mapper.core.gd.p.get r k ∧
      x'.mapper.core.gd.m.get r k = x.mapper.core.gd.m.get r k ∧
      lastWrite (.write mat m n :: h) r k = lastWrite h r k := by
  have e : lastWrite (.write mat m n :: h) r k = lastWrite h r k := by
    show (if r < m ∧ k < n then _ else _) = _
    rw [if_neg hrk]
  have h1 := runs_cells hok hr
  have h2 := runs_cells hok (Runs.write hr hw)
  rw [h2.p, h1.p, h2.m, h1.m, rowOf_bin hi]
  dsimp only
  rw [e]
  exact ⟨rfl, rfl, rfl⟩

theorem rdStep_orig (hok : CfgOk cfg) (hi : cfg.mode.isInt = false)
    (hs : Shape E cfg x) (hrd : cfg.readDisturb = true) {y : Xbar K} (hy : MvmDone E cfg x m n y)
    (h' : rdStep E cfg y m n = .ok x') (ho : OrigCur E cfg x h) : OrigCur E cfg x' h := by
  obtain ⟨rd, hx, hsr⟩ := hs.rd hrd
  have hy' : y.rd = some rd := hy.rd.trans hx
  have hgd : y.mapper.core.gd = x.mapper.core.gd := by rw [hy.fixed]
  have keep : x'.mapper.core.ia.pO = x.mapper.core.ia.pO → x'.mapper.core.ia.mO = x.mapper.core.ia.mO →
      x'.mapper.core.gd = x.mapper.core.gd → OrigCur E cfg x' h := fun a b c =>
    ⟨by rw [a, c]; exact ho.p, by rw [b, c]; exact ho.m, by rw [b]; exact ho.m'⟩
  cases hst : cfg.strategy
  · obtain ⟨_, _, _, rd', _, _, k1, k2⟩ := rdStep_off hsr hy' hst h'
    by_cases hd : y.consec % cfg.updFreq = 0
    · have u := k1 hd
      exact keep (u.pO.trans hy.pO) (u.mO.trans hy.mO) (by rw [u.frame, ← hgd])
    · have e := k2 hd
      exact keep (by rw [e]; exact hy.pO) (by rw [e]; exact hy.mO) (by rw [e, hgd])
  · obtain ⟨_, k1, k2⟩ := rdStep_software hsr hy' hst h'
    by_cases hd : y.consec % cfg.updFreq = 0
    · obtain ⟨z, rd1, e1, e2, e3, e4, _, e5, e6, e7⟩ := k2 hd
      have hgz : z.mapper.core.gd = x.mapper.core.gd := by rw [e5.frame, ← hgd]
      cases hc : rdCheckSoftware E cfg rd y.consec (y.writes + y.refX)
      · rw [e6 hc] at keep ⊢
        exact keep (e5.pO.trans hy.pO) (e5.mO.trans hy.mO) hgz
      · obtain ⟨rd', hw⟩ := e7 hc
        have hcz : CoreShape E cfg z.mapper.core := e5.shape hy.shape
        have hb := hw.bin hcz hi
        refine ho.done hcz.mode ⟨e5.pO.trans hy.pO, e5.mO.trans hy.mO⟩
          (fun r k _ => by rw [hgz]; exact ⟨rfl, rfl, rfl⟩) ?_ hb
        exact (aWrite_frame hw.prog).1
    · have e := k1 hd
      rw [e] at keep ⊢
      exact keep hy.pO hy.mO hgd
  · obtain ⟨_, _, rd1, rd', _, _, k3, k4⟩ := rdStep_cell hsr hy.shape hy' hst h'
    by_cases hd : y.consec % cfg.updFreq = 0
    · obtain ⟨c1, rd2, e1, e2, e3⟩ := k4 hd
      exact keep (e3.pO.trans (e2.pO.trans hy.pO)) (e3.mO.trans (e2.mO.trans hy.mO))
        (by rw [e3.frame]; show c1.gd = _; rw [e2.frame, ← hgd])
    · have e := (k3 hd).2
      rw [e] at keep
      exact keep hy.pO hy.mO hgd

theorem runs_origCur (hok : CfgOk cfg) (hi : cfg.mode.isInt = false) (hdo : cfg.digitalOnly = false)
    (hr : Runs E cfg h x) : OrigCur E cfg x h := by
  induction hr with
  | init h =>
    have := (mkCore_inv (mkXbar_inv h).1).2.2.2.1
    refine ⟨fun r k => Or.inr ⟨rfl, ?_⟩, fun _ r k => Or.inr ⟨rfl, ?_⟩, fun _ r k => ?_⟩ <;> rw [this] <;> rfl
  | @write hs x x' mat m n hr h' ih =>
    have hsh := runs_shape hr
    have h1 := (cont_aWrite_ok hsh h' hdo rfl).2 hi
    exact ih.done (c := { x.mapper.core with gd := x'.mapper.core.gd }) hsh.core.mode ⟨rfl, rfl⟩
      (write_outside hok hi hr h') rfl h1
  | @mvm hs x x' res vec mat out m n l hr h' ih =>
    obtain ⟨y, hy, h2⟩ := xMvm_done (runs_shape hr) hdo h'
    cases hrd : cfg.readDisturb
    · rw [hrd] at h2
      cases h2
      have hgd : x'.mapper.core.gd = x.mapper.core.gd := by rw [hy.fixed]
      exact ⟨by rw [hy.pO, hgd]; exact ih.p, by rw [hy.mO, hgd]; exact ih.m, by rw [hy.mO]; exact ih.m'⟩
    · rw [hrd] at h2
      have := rdStep_orig hok hi (runs_shape hr) hrd hy h2 ih
      exact ⟨this.p, this.m, this.m'⟩

end

end Acs
