import Verif.Lemmas.WireBin
import Verif.Lemmas.RdHist

/-! # What the solver of a reachable crossbar holds

The conductances come from the currents of the latest write or software refresh.  These are the currents kept for the
removal of variation. -/

set_option linter.unusedSectionVars false

namespace Acs

open Finset Spec

section
variable {K : Type} [Field K] [LinearOrder K] [IsStrictOrderedRing K] [FloorRing K]
variable {E : Env K} {cfg : Cfg K} {mat vec res r : Vec Int} {m n w : Nat} {l : String}
variable {x x' : Xbar K} {h : List Op} {ε : K} {s s' : Solver K}

/-- A crossbar with the recorded currents in its cells. -/
def orig (x : Xbar K) : Xbar K := { x with mapper := { x.mapper with core := { x.mapper.core with
  ia := { x.mapper.core.ia with p := x.mapper.core.ia.pO, m := x.mapper.core.ia.mO } } } }

/-! ## A matrix that was programmed fits into the solver -/

theorem wr_rows {α : Type} {g g' : Mat α} {i j : Nat} {a : α} (h : g.wr i j a = .ok g') :
    i < g.rows ∧ g'.rows = g.rows := by
  unfold Mat.wr at h
  split at h
  · next hb => cases h; exact ⟨hb.1, rfl⟩
  · cases h

theorem rows_loop {α : Type} {f : Nat → Nat → Mat α → C (Mat α)} {g g' : Mat α} {k : Nat → Nat} (hm : 0 < m) (hn : 0 < n)
    (hf : ∀ i j u v, f i j u = .ok v → k j < u.rows ∧ v.rows = u.rows)
    (h : loop m (fun i g => loop n (f i) g) g = .ok g') : k (n - 1) < g.rows := by
  have one : ∀ i n' (u v : Mat α), loop n' (f i) u = .ok v → v.rows = u.rows := fun i n' => by
    induction n' with
    | zero => intro u v hu; cases hu; rfl
    | succ n' ih =>
      intro u v hu
      rw [loop_succ, bind_eq_ok] at hu
      obtain ⟨t, h1, h2⟩ := hu
      rw [(hf _ _ _ _ h2).2, ih _ _ h1]
  have all : ∀ m' (u v : Mat α), loop m' (fun i g => loop n (f i) g) u = .ok v → v.rows = u.rows := fun m' => by
    induction m' with
    | zero => intro u v hu; cases hu; rfl
    | succ m' ih =>
      intro u v hu
      rw [loop_succ, bind_eq_ok] at hu
      obtain ⟨t, h1, h2⟩ := hu
      rw [one _ _ _ _ h2, ih _ _ h1]
  obtain ⟨m, rfl⟩ := Nat.exists_eq_succ_of_ne_zero hm.ne'
  obtain ⟨n, rfl⟩ := Nat.exists_eq_succ_of_ne_zero hn.ne'
  rw [loop_succ, bind_eq_ok] at h
  obtain ⟨u, h1, h2⟩ := h
  rw [loop_succ, bind_eq_ok] at h2
  obtain ⟨v, h3, h4⟩ := h2
  rw [← all _ _ _ h1, ← one _ _ _ _ h3]
  exact (hf _ _ _ _ h4).1

theorem setConductance_fits {A : Mat K} {B : Option (Mat K)} (hm : 0 < m)
    (h : setConductance E cfg s A B m n = .ok s') : n * lines s.mode ≤ s.nXbar := by
  rcases Nat.eq_zero_or_pos n with rfl | hn
  · rw [Nat.zero_mul]; exact Nat.zero_le _
  unfold setConductance at h
  simp only [bind_eq_ok] at h
  obtain ⟨gp, _, gm, _, g, h, _⟩ := h
  have lw : ∀ md : Mode, (md.wEnc = some .single ∨ md.wEnc = some .doubleCol → lines md = 1) ∧
      (md.wEnc = some .doubleRow ∨ md.wEnc = some .quad → lines md = 2) := fun md => by cases md <;> decide
  unfold wEncode at h
  split at h
  · have := rows_loop (k := id) hm hn (fun i j u v hv => by
      rw [bind_eq_ok] at hv
      obtain ⟨_, _, hv⟩ := hv
      exact wr_rows hv) h
    have hl := (lw s.mode).1 (by simp only [*, or_true, true_or])
    simp only [id_eq, Mat.const] at this
    rw [hl]
    omega
  · have := rows_loop (k := id) hm hn (fun i j u v hv => by
      simp only [bind_eq_ok] at hv
      obtain ⟨_, _, _, _, _, h1, hv⟩ := hv
      have h1 := wr_rows h1
      have h2 := wr_rows hv
      exact ⟨h1.1, h2.2.trans h1.2⟩) h
    have hl := (lw s.mode).1 (by simp only [*, or_true, true_or])
    simp only [id_eq, Mat.const] at this
    rw [hl]
    omega
  · have := rows_loop (k := fun j => 2 * j + 1) hm hn (fun i j u v hv => by
      simp only [bind_eq_ok] at hv
      obtain ⟨_, _, _, _, _, h1, hv⟩ := hv
      have h1 := wr_rows h1
      have h2 := wr_rows hv
      exact ⟨h1.2 ▸ h2.1, h2.2.trans h1.2⟩) h
    have hl := (lw s.mode).2 (by simp only [*, or_true, true_or])
    simp only [Mat.const] at this
    rw [hl]
    omega
  · have := rows_loop (k := fun j => 2 * j + 1) hm hn (fun i j u v hv => by
      simp only [bind_eq_ok] at hv
      obtain ⟨_, _, _, _, _, h1, _, h2, _, h3, hv⟩ := hv
      have h1 := wr_rows h1
      have h2 := wr_rows h2
      have h3 := wr_rows h3
      have h4 := wr_rows hv
      exact ⟨h1.2 ▸ h2.1, h4.2.trans (h3.2.trans (h2.2.trans h1.2))⟩) h
    have hl := (lw s.mode).2 (by simp only [*, or_true, true_or])
    simp only [Mat.const] at this
    rw [hl]
    omega
  · cases h

/-- A block of more word lines than the crossbar has cannot be programmed. -/
theorem aWrite_fits {mp mp' : Mapper K} (hc : CoreShape E cfg mp.core) (hp : cfg.parasitics = true)
    (hi : cfg.mode.isInt = false) (hm : 0 < m)
    (h : aWrite E cfg mp m n = .ok mp') : n * lines cfg.mode ≤ cfg.N := by
  rcases aWrite_solver hc.mode h with ⟨hp', _⟩ | ⟨_, s, s', e1, e2, h3⟩
  · rw [hp] at hp'; cases hp'
  · have hsd := hc.par s e1
    have := setConductance_fits (by rw [slices_bin hi, Nat.mul_one]; exact hm) h3
    rwa [hsd.2.1, hsd.2.2] at this

/-! ## Recorded currents -/

theorem sync_same {b1 b2 : Nat} (hp : x'.mapper.core.par = x.mapper.core.par)
    (h1 : x'.mapper.core.ia.pO = x.mapper.core.ia.pO) (h2 : x'.mapper.core.ia.mO = x.mapper.core.ia.mO)
    (h : InSync E cfg (orig x) b1 b2) : InSync E cfg (orig x') b1 b2 := by
  unfold InSync orig at h ⊢
  dsimp only [firstArray, secondArray] at h ⊢
  rw [hp, h1, h2]
  exact h

/-- The programmed currents are recorded. -/
theorem sync_orig {c : Core K} (hi : cfg.mode.isInt = false) (hmd : c.mode = cfg.mode)
    (hb : BinDone E cfg c m n x.mapper.core.ia) (h : InSync E cfg x m n) : InSync E cfg (orig x) m n := by
  obtain ⟨s, g, w, e1, e2, e3, e4, e5, e6⟩ := h
  refine ⟨s, g, w, e1, e2, e3, e4, e5, fun r c hr hc => ?_⟩
  rw [e6 r c hr hc]
  by_cases hn : r / lines cfg.mode < n
  · rw [if_pos hn, if_pos hn]
    have hm : c / pair cfg.mode < m := by
      rw [slices_bin hi, Nat.mul_one] at hc
      exact Nat.div_lt_of_lt_mul (by rw [mul_comm]; exact hc)
    have hp := hb.p (c / pair cfg.mode) (r / lines cfg.mode)
    rw [if_pos ⟨hm, hn⟩] at hp
    have hp := hp.2
    dsimp only at hp
    by_cases h34 : cfg.mode = .bnn3 ∨ cfg.mode = .bnn4
    · have l1 : lines cfg.mode = 1 := by rcases h34 with e | e <;> rw [e] <;> rfl
      have p1 : pair cfg.mode = 1 := by rcases h34 with e | e <;> rw [e] <;> rfl
      have n2 : cfg.mode ≠ .bnn2 := by rcases h34 with e | e <;> rw [e] <;> decide
      unfold cross firstArray secondArray orig
      rw [l1, p1] at hp ⊢
      simp only [Nat.mod_one, Nat.div_one, Nat.zero_mod, Nat.add_zero, if_true, if_neg n2] at hp ⊢
      rw [hp]
    · have hq := hb.m (by rw [hmd]; exact not_or.1 h34) (c / pair cfg.mode) (r / lines cfg.mode)
      rw [if_pos ⟨hm, hn⟩] at hq
      have hq := hq.2
      dsimp only at hq
      refine cross_congr ?_ ?_
      all_goals
        simp only [firstArray, secondArray, orig]
        split <;> first | rw [hp] | rw [hq]
  · rw [if_neg hn, if_neg hn]

/-- The solver of a reachable crossbar holds the conductances of the recorded currents: at least the latest block. -/
theorem runs_sync {b : Nat × Nat} (hok : CfgOk cfg) (hI : Resistive cfg) (hM : 0 < cfg.M) (hN : 0 < cfg.N)
    (hr : Runs E cfg h x) (hb : newestBlock h = some b) (h1 : b.1 ≤ cfg.M) (h2 : b.2 * lines cfg.mode ≤ cfg.N) :
    ∃ b' : Nat × Nat, b.1 ≤ b'.1 ∧ b.2 ≤ b'.2 ∧ b'.2 * lines cfg.mode ≤ cfg.N ∧ InSync E cfg (orig x) b'.1 b'.2 := by
  have hS := cfgOk_S_pos hok
  induction hr with
  | init _ => cases hb
  | @write hs x x' mat m n hr hx _ =>
    obtain rfl := Option.some.inj hb
    refine ⟨(m, n), le_rfl, le_rfl, h2, ?_⟩
    exact sync_orig (c := { x.mapper.core with gd := x'.mapper.core.gd }) hI.bin (runs_shape hr).core.mode ((cont_aWrite_ok (runs_shape hr) hx hI.analog rfl).2 hI.bin)
      (write_sync hr hI.analog hI.par hI.read.ne hI.wire.ne' hS hM hN
        (by rw [slices_bin hI.bin, Nat.mul_one]; exact h1) h2 hx)
  | @mvm hs x x' res vec mat out m n l hr h' ih =>
    obtain ⟨b', c1, c2, c3, hsy⟩ := ih hb
    have hsh := runs_shape hr
    obtain ⟨y, hy, hst⟩ := xMvm_done hsh hI.analog h'
    have hpar : y.mapper.core.par = x.mapper.core.par := by rw [hy.fixed]
    have keep : x'.mapper.core.par = y.mapper.core.par → x'.mapper.core.ia.pO = y.mapper.core.ia.pO →
        x'.mapper.core.ia.mO = y.mapper.core.ia.mO → ∃ b' : Nat × Nat, b.1 ≤ b'.1 ∧ b.2 ≤ b'.2 ∧
        b'.2 * lines cfg.mode ≤ cfg.N ∧ InSync E cfg (orig x') b'.1 b'.2 := fun d1 d2 d3 =>
      ⟨b', c1, c2, c3, sync_same (d1.trans hpar) (d2.trans hy.pO) (d3.trans hy.mO) hsy⟩
    cases hrd : cfg.readDisturb
    · rw [hrd] at hst
      cases hst
      exact keep rfl rfl rfl
    · rw [hrd] at hst
      replace hst : rdStep E cfg y m n = .ok x' := hst
      obtain ⟨rd, hx, hsr⟩ := hsh.rd hrd
      have hy' : y.rd = some rd := hy.rd.trans hx
      cases hs : cfg.strategy
      · obtain ⟨_, _, _, rd', _, _, k1, k2⟩ := rdStep_off hsr hy' hs hst
        by_cases hd : y.consec % cfg.updFreq = 0
        · have u := k1 hd
          exact keep (by rw [u.frame]) u.pO u.mO
        · have e := k2 hd
          exact keep (by rw [e]) (by rw [e]) (by rw [e])
      · obtain ⟨_, k1, k2⟩ := rdStep_software hsr hy' hs hst
        by_cases hd : y.consec % cfg.updFreq = 0
        · obtain ⟨z, rd1, e1, e2, e3, e4, _, e5, e6, e7⟩ := k2 hd
          cases hc : rdCheckSoftware E cfg rd y.consec (y.writes + y.refX)
          · rw [e6 hc] at keep ⊢
            exact keep (by rw [e5.frame]) e5.pO e5.mO
          · obtain ⟨rd', hw⟩ := e7 hc
            have hcz : CoreShape E cfg z.mapper.core := e5.shape hy.shape
            have hfit := aWrite_fits hcz hI.par hI.bin hM hw.prog
            refine ⟨(cfg.M, cfg.N), h1, (Nat.le_mul_of_pos_right _ (lines_pos _)).trans h2, hfit, ?_⟩
            refine sync_orig hI.bin hcz.mode (hw.bin hcz hI.bin) (aWrite_sync hcz ?_ hI.par hI.read.ne hI.wire.ne' hS hM hN
              (by rw [slices_bin hI.bin, Nat.mul_one]) hfit hw.prog)
            rw [show z.mapper.core.par = x.mapper.core.par by rw [e5.frame]; exact hpar]
            exact runs_tuned hr
        · rw [k1 hd] at keep ⊢
          exact keep rfl rfl rfl
      · obtain ⟨_, _, rd1, rd', _, _, k3, k4⟩ := rdStep_cell hsr hy.shape hy' hs hst
        by_cases hd : y.consec % cfg.updFreq = 0
        · obtain ⟨c1, rd2, e1, e2, e3⟩ := k4 hd
          exact keep (by rw [e3.frame]; show c1.par = _; rw [e2.frame]) (e3.pO.trans e2.pO) (e3.mO.trans e2.mO)
        · have e := (k3 hd).2
          exact keep (by rw [e]) (by rw [e]) (by rw [e])

theorem noise_of (hg : ∀ k, |E.gauss k| ≤ ε) : NoiseUpTo E cfg ε :=
  ⟨(abs_nonneg _).trans (hg 0), fun _ => hg⟩

theorem noisy_upTo (hE : ExactArith E) (hg : NoiseUpTo E cfg ε) {s y : K} {g : Int} (hs : 0 ≤ s)
    (h : Noisy E cfg s g y) : |y - s| ≤ ε ∧ 0 ≤ y := by
  by_cases hn : 0 < cfg.hrsNoise ∨ 0 < cfg.lrsNoise
  · exact ⟨(noisy_near hE (hg.2 hn) hs h).1, (noisy_near hE (hg.2 hn) hs h).2.1⟩
  · rw [not_or, not_lt, not_lt] at hn
    have e : y = s := by
      rcases h with ⟨_, h⟩ | ⟨_, h⟩
      · unfold Varied at h
        rwa [if_pos hn.1] at h
      · unfold Varied at h
        rwa [if_pos hn.2] at h
    rw [e, sub_self, abs_zero]
    exact ⟨hg.1, hs⟩

theorem set_near (hE : ExactArith E) (hi : cfg.mode.isInt = false) (h1 : 0 ≤ cfg.hrs) (h2 : 0 ≤ cfg.lrs)
    (hg : NoiseUpTo E cfg ε) {o : Option Int} {g : Int} {y : K} (i : Nat) (h : Set E cfg o g y) :
    0 ≤ y ∧ (o ≠ none → |y - nominal cfg i g| ≤ ε) := by
  rcases h with h | ⟨rfl, rfl⟩
  · have hs := binCell_state h
    unfold BinCell at h
    rw [cellCurrent_exact hE hi i] at h
    have := noisy_upTo hE hg (nominal_nonneg hi h1 h2 hs i) h
    exact ⟨this.2, fun _ => this.1⟩
  · exact ⟨h1, fun h => absurd rfl h⟩

/-- The recorded currents are near the nominal ones and not negative. -/
theorem runs_near_orig (hE : ExactArith E) (hok : CfgOk cfg) (hI : Resistive cfg) (hg : NoiseUpTo E cfg ε)
    (hr : Runs E cfg h x) :
    NearNominal cfg ε (lastWrite h) (orig x).mapper.core.ia m n ∧ Conducts cfg (orig x) m n := by
  have hi := hI.bin
  have ho := runs_origCur hok hi hI.analog hr
  have hc := runs_cells hok hr
  have h2 := hI.hrs.trans hI.lt.le
  have h0 : 0 ≤ ε := hg.1
  have kp : ∀ i j, 0 ≤ x.mapper.core.ia.pO.get i j ∧ (lastWrite h i j ≠ none →
      |x.mapper.core.ia.pO.get i j - nominal cfg i (x.mapper.core.gd.p.get i j)| ≤ ε) := fun i j =>
    set_near hE hi hI.hrs h2 hg i (ho.p i j)
  have km : ∀ i j, 0 ≤ x.mapper.core.ia.mO.get i j ∧ (lastWrite h i j ≠ none →
      |x.mapper.core.ia.mO.get i j - nominal cfg i (x.mapper.core.gd.m.get i j)| ≤ ε) := fun i j => by
    by_cases hm : cfg.mode = .bnn3 ∨ cfg.mode = .bnn4
    · rw [ho.m' hm]
      refine ⟨hI.hrs, fun _ => ?_⟩
      have e : x.mapper.core.gd.m.get i j = 0 := by
        rw [hc.m]
        unfold cellOf
        split
        · rfl
        · unfold encM
          rcases hm with hm | hm <;> rw [hm]
      rw [e, nominal_bin hi]
      simpa using h0
    · exact set_near hE hi hI.hrs h2 hg i (ho.m (not_or.1 hm) i j)
  refine ⟨fun i j w _ _ hw => ?_, fun i j _ _ => ?_⟩
  · have hne : lastWrite h i j ≠ none := by rw [hw]; exact fun h => by cases h
    have e1 : x.mapper.core.gd.p.get i j = encP cfg w 0 := by
      rw [hc.p, rowOf_bin hi]
      dsimp only
      rw [hw]
      rfl
    have e2 : x.mapper.core.gd.m.get i j = encM cfg w 0 := by
      rw [hc.m, rowOf_bin hi]
      dsimp only
      rw [hw]
      rfl
    have a := (kp i j).2 hne
    have b := (km i j).2 hne
    rw [e1] at a
    rw [e2] at b
    exact ⟨a, b⟩
  · unfold firstArray secondArray orig
    split
    · exact ⟨(km i j).1, (kp i j).1⟩
    · exact ⟨(kp i j).1, (km i j).1⟩

end

end Acs
