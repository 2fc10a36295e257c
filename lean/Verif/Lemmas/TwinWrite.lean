import Verif.Lemmas.TwinAna
import Verif.Lemmas.WriteInv

/-! # Writes of equal rows -/

set_option linter.unusedSectionVars false

namespace Acs

/-- The rows `i` and `i'` of a weight matrix with `m` rows and `n` columns are the same. -/
def TwW (i i' m n : Nat) (mat : Vec Int) : Prop :=
  (i < m ↔ i' < m) ∧ (i < m → ∀ j, j < n → mat.get (n * i + j) = mat.get (n * i' + j))

section
variable {i i' m n : Nat} {mat : Vec Int} {g g' : Gd}

/-- Corresponding rows of cells with `S` rows per row of the matrix. -/
def blkP (S i i' a b : Nat) : Prop := a / S = i ∧ b / S = i' ∧ a % S = b % S

theorem blkP_iff {S a b : Nat} (hm : i < m ↔ i' < m) (hab : blkP S i i' a b) : a < m * S ↔ b < m * S := by
  rcases Nat.eq_zero_or_pos S with e | e
  · rw [e]; simp
  · rw [lt_blk_iff e, lt_blk_iff e, hab.1, hab.2.1, hm]

theorem TwW.eq {S a b j : Nat} (hw : TwW i i' m n mat) (hab : blkP S i i' a b) (ha : a < m * S) (hj : j < n) :
    mat.get (n * (a / S) + j) = mat.get (n * (b / S) + j) := by
  have hl : a / S < m := Nat.div_lt_of_lt_mul (by rwa [Nat.mul_comm] at ha)
  rw [hab.1] at hl
  rw [hab.1, hab.2.1, hw.2 hl j hj]

theorem tw_sumW (hg : Tw (atRows i i') g.sumW) (hw : TwW i i' m n mat) :
    Tw (atRows i i') (g.sumW.over m fun i => ∑ j ∈ Finset.range n, mat.get (n * i + j)) :=
  hg.over (fun _ _ h => atRows_iff hw.1 h) fun a b hab ha _ => by
    obtain ⟨rfl, rfl⟩ := hab
    exact Finset.sum_congr rfl fun j hj => hw.2 ha j (Finset.mem_range.1 hj)

theorem tw_gdDiff {sp : List Nat} {sh : Vec Nat} (h : GdTw (blkP sp.length i i') i i' g) (hw : TwW i i' m n mat) :
    GdTw (blkP sp.length i i') i i' (gdDiff sp sh mat m n g) :=
  ⟨h.p.over (fun _ _ h => blkP_iff hw.1 h) fun a b j hab ha _ hj => by rw [hw.eq hab ha hj, hab.2.2],
    h.m.over (fun _ _ h => blkP_iff hw.1 h) fun a b j hab ha _ hj => by rw [hw.eq hab ha hj, hab.2.2], tw_sumW h.sumW hw⟩

section
variable (h : GdTw (atRows i i') i i' g) (hw : TwW i i' m n mat)
include h hw

theorem tw_cells {A : Mat Int} {f : Int → Int} (hA : TwM (atRows i i') A) :
    TwM (atRows i i') (A.over m n fun i j => f (mat.get (n * i + j))) :=
  hA.over (fun _ _ h => atRows_iff hw.1 h) fun a b j hab ha _ hj => by
    obtain ⟨rfl, rfl⟩ := hab
    rw [hw.2 ha j hj]

theorem tw_gdPM : GdTw (atRows i i') i i' (gdPM mat m n g) :=
  ⟨tw_cells (f := fun x => if x = 1 then 1 else 0) h hw h.p, tw_cells (f := fun x => if x = -1 then 1 else 0) h hw h.m,
    tw_sumW h.sumW hw⟩

theorem tw_gdBnn3 : GdTw (atRows i i') i i' (gdBnn3 mat m n g) :=
  ⟨tw_cells (f := fun x => (x + 1) / 2) h hw h.p, h.m, h.sumW⟩

theorem tw_gdBnn4 : GdTw (atRows i i') i i' (gdBnn4 mat m n g) :=
  ⟨tw_cells (f := fun x => (x - 1).tdiv (-2)) h hw h.p, h.m, h.sumW⟩

theorem tw_gdTc {o : Bool} : GdTw (atRows i i') i i' (gdTc o mat m n g) :=
  ⟨tw_cells (f := fun x => (x + o.toNat) % 2) h hw h.p, tw_cells (f := fun x => (x + o.toNat) / 2 % 2) h hw h.m, h.sumW⟩

end

/-- The cells after a write with an offset, for every width of the weights. -/
theorem dWriteOffs_inv' {strict : Bool} {wBit : Nat} {split : List Nat} {shift : Vec Nat}
    (h : dWriteOffs strict wBit split shift mat m n g = .ok g') : ∃ o : Int,
    g' = ⟨g.p.over (m * split.length) n fun t j => dg (mat.get (n * (t / split.length) + j) + o)
      (shift.get (t % split.length)) (split.getD (t % split.length) 0), g.m, g.sumW⟩ := by
  obtain ⟨o, ho⟩ : ∃ o : Int, ∀ c, shlI strict 1 (u32sub wBit 1) = .ok c → c = o := by
    cases h : shlI strict 1 (u32sub wBit 1) with
    | ok o => exact ⟨o, fun c h => (ok_inj.1 h).symm⟩
    | error _ => exact ⟨0, fun c h => by cases h⟩
  refine ⟨o, ?_⟩
  set S := split.length with hSdef
  set fp : Nat → Nat → Int := fun t j => dg (mat.get (n * (t / S) + j) + o)
      (shift.get (t % S)) (split.getD (t % S) 0) with hfp
  unfold dWriteOffs at h
  refine (loop2_inv (fun i j => ({ g with p := g.p.blk S n fp i j } : Gd)) ?_ ?_ ?_ h).trans ?_
  · simp [Mat.blk_zero]
  · intro i _; simp only [Mat.blk_row]
  · intro i j hi hj t ht
    simp only [bind_eq_ok, Vec.rd_eq_ok, addI_eq_ok] at ht
    obtain ⟨x, ⟨_, rfl⟩, o', ho', w, ⟨_, rfl⟩, ht⟩ := ht
    rw [ho o' ho'] at ht
    have := loop_inv (fun s => ({ g with p := g.p.blk3 S n fp i j s } : Gd))
          (by simp [Mat.blk3_zero]) ?_ ht
    · rw [this]; simp only [← hSdef, Mat.blk3_end]
    · intro s hs g' hg'
      have hs' : s < S := hs
      have e1 : fp (i * S + s) j = dg (mat.get (n * i + j) + o) (shift.get s)
          (split.getD s 0) := by
        simp only [hfp]; rw [blk_div hs', blk_mod hs']
      simp only [bind_eq_ok, Vec.rd_eq_ok, ok_inj] at hg'
      obtain ⟨sh, ⟨_, rfl⟩, d, h4, p, h5, rfl⟩ := hg'
      have h4 := digit_inv h4
      rw [Mat.blk3_wr_inv h5 (by rw [e1, h4])]
  · simp only [Mat.blk_end]

end

section
variable {K : Type} [Field K] [LinearOrder K] [IsStrictOrderedRing K] [FloorRing K]
variable {E : Env K} {cfg : Cfg K} {k : Core K} {m n i i' : Nat} {mat : Vec Int} {P : Nat → Nat → Prop}
variable {g : Gd} {ia : Ia K} {p : Option (Solver K)}

theorem ofRows_blkP (h : cfg.mode.isInt = true) : ofRows cfg i i' = blkP cfg.S i i' := by
  funext a b
  exact propext (ofRows_int h)

theorem tw_dWriteGd (hk : GdTw (ofRows cfg i i') i i' k.gd) (hm : k.mode = cfg.mode) (hw : TwW i i' m n mat) :
    Ok' (dWriteGd E cfg k mat m n) (GdTw (ofRows cfg i i') i i') := by
  refine Sat.intro_ok fun g hg => ?_
  unfold dWriteGd at hg
  split at hg <;> rename_i hmd <;> rw [hm] at hmd
  iterate 5
    rw [ofRows_blkP (by rw [hmd]; rfl)] at hk ⊢
    rw [dWriteDiff_inv hg]
    exact tw_gdDiff hk hw
  · rw [ofRows_blkP (by rw [hmd]; rfl)] at hk ⊢
    obtain ⟨o, rfl⟩ := dWriteOffs_inv' hg
    exact ⟨hk.p.over (fun _ _ h => blkP_iff hw.1 h) fun a b j hab ha _ hj => by
      have e := hw.eq hab ha hj
      have e' : a % cfg.split.length = b % cfg.split.length := hab.2.2
      have e : mat.get (n * (a / cfg.split.length) + j) = mat.get (n * (b / cfg.split.length) + j) := e
      rw [e, e'], hk.m, hk.sumW⟩
  all_goals
    rw [ofRows_non (by rw [hmd]; rfl)] at hk ⊢
    first
      | rw [(dWriteDiffBnn_inv hg).1]; exact tw_gdPM hk hw
      | rw [(dWriteDiffTnn_inv hg).1]; exact tw_gdPM hk hw
      | rw [dWriteBnn3_inv hg]; exact tw_gdBnn3 hk hw
      | rw [dWriteBnn4_inv hg]; exact tw_gdBnn4 hk hw
      | rw [dWriteTcTnn_inv hg]; exact tw_gdTc hk hw

/-! ## Currents -/

/-- All currents of a cell. -/
def iaV (ia : Ia K) (r k : Nat) : K × K × K × K := (ia.p.get r k, ia.m.get r k, ia.pO.get r k, ia.mO.get r k)

theorem IaTw.view (h : IaTw P ia) : ∀ a b, P a b → ∀ j, iaV ia a j = iaV ia b j := fun a b hab j => by
  unfold iaV
  rw [h.p a b hab, h.m a b hab, h.pO a b hab, h.mO a b hab]

theorem IaTw.of_view (h : ∀ a b, P a b → ∀ j, iaV ia a j = iaV ia b j) : IaTw P ia :=
  ⟨fun a b hab j => congrArg (·.1) (h a b hab j), fun a b hab j => congrArg (·.2.1) (h a b hab j),
    fun a b hab j => congrArg (·.2.2.1) (h a b hab j), fun a b hab j => congrArg (·.2.2.2) (h a b hab j)⟩

theorem addNoise_quiet (h : cfg.hrsNoise ≤ 0) (h' : cfg.lrsNoise ≤ 0) {r : Nat} {x : K} {c : Int} {y : K × Nat}
    (hy : addNoise E cfg r x c = .ok y) : y.1 = x := by
  unfold addNoise at hy
  rw [if_pos h, if_pos h'] at hy
  split at hy
  · rw [← ok_inj.1 hy]
  · split at hy
    · rw [← ok_inj.1 hy]
    · cases hy

/-- A loop over cells that reads something at the beginning of each row. -/
theorem cells_pre {σ β ρ : Type} {m n : Nat} {pre : Nat → C ρ} {f : Nat → ρ → Nat → σ → C σ} {s t : σ} (view : σ → Nat → Nat → β)
    (Q : Nat → Nat → β → β → Prop)
    (hs : ∀ i j, i < m → j < n → ∀ x, pre i = .ok x → ∀ s t, f i x j s = .ok t →
      Q i j (view s i j) (view t i j) ∧ ∀ r k, ¬(r = i ∧ k = j) → view t r k = view s r k)
    (h : loop m (fun i st => pre i >>= fun x => loop n (f i x) st) s = .ok t) :
    ∀ r k, if r < m ∧ k < n then Q r k (view s r k) (view t r k) else view t r k = view s r k := by
  induction m generalizing t with
  | zero =>
    rw [loop_zero, ok_inj] at h
    subst h
    exact fun r k => by rw [if_neg (by omega)]
  | succ m ih =>
    rw [loop_succ, bind_eq_ok] at h
    obtain ⟨u, h1, h2⟩ := h
    rw [bind_eq_ok] at h2
    obtain ⟨x, hx, h2⟩ := h2
    have hv := ih (fun i j hi => hs i j (by omega)) h1
    obtain ⟨-, hw⟩ := row_inv view Q (fun _ => True) trivial (fun j hj s t _ e => ⟨trivial, hs m j (by omega) hj x hx s t e⟩) h2
    intro r k
    have e := hv r k
    have e' := hw r k
    by_cases hr : r = m ∧ k < n
    · rw [if_pos hr] at e'
      rw [if_neg (by omega)] at e
      rw [if_pos (by omega), ← e]
      exact e'
    · rw [if_neg hr] at e'
      rw [e']
      by_cases hk : r < m ∧ k < n
      · rw [if_pos hk] at e; rw [if_pos (by omega)]; exact e
      · rw [if_neg hk] at e; rw [if_neg (by omega)]; exact e

theorem tw_pre {σ β ρ : Type} {M N : Nat} {pre : Nat → C ρ} {f : Nat → ρ → Nat → σ → C σ} {s t : σ} (view : σ → Nat → Nat → β)
    (Q : Nat → Nat → β → β → Prop) (h0 : ∀ a b, P a b → ∀ j, view s a j = view s b j) (hm : ∀ a b, P a b → (a < M ↔ b < M))
    (hq : ∀ a b k x y z, P a b → Q a k x y → Q b k x z → y = z)
    (hs : ∀ i j, i < M → j < N → ∀ x, pre i = .ok x → ∀ s t, f i x j s = .ok t →
      Q i j (view s i j) (view t i j) ∧ ∀ r k, ¬(r = i ∧ k = j) → view t r k = view s r k)
    (h : loop M (fun i st => pre i >>= fun x => loop N (f i x) st) s = .ok t) :
    ∀ a b, P a b → ∀ j, view t a j = view t b j := by
  have h1 : TwM P (⟨0, 0, view s⟩ : Mat β) := h0
  exact h1.cells (A' := ⟨0, 0, view t⟩) (Q := Q) hm hq (cells_pre view Q hs h)

theorem tw_view {σ β : Type} {M N : Nat} {f : Nat → Nat → σ → C σ} {s t : σ} (view : σ → Nat → Nat → β)
    (Q : Nat → Nat → β → β → Prop) (h0 : ∀ a b, P a b → ∀ j, view s a j = view s b j) (hm : ∀ a b, P a b → (a < M ↔ b < M))
    (hq : ∀ a b k x y z, P a b → Q a k x y → Q b k x z → y = z)
    (hs : ∀ i j, i < M → j < N → ∀ s t, f i j s = .ok t →
      Q i j (view s i j) (view t i j) ∧ ∀ r k, ¬(r = i ∧ k = j) → view t r k = view s r k)
    (h : loop M (fun i st => loop N (f i) st) s = .ok t) : ∀ a b, P a b → ∀ j, view t a j = view t b j := by
  have h1 : TwM P (⟨0, 0, view s⟩ : Mat β) := h0
  exact h1.cells (A' := ⟨0, 0, view t⟩) (Q := Q) hm hq
    (cells_inv view Q (fun _ => True) trivial (fun i j hi hj s t _ e => ⟨trivial, hs i j hi hj s t e⟩) h).2

theorem tw_aWritePM (hg : GdTw P i i' k.gd) (hi : IaTw P k.ia) (hp : ∀ a b, P a b → a % k.numSeg = b % k.numSeg)
    (hm : ∀ a b, P a b → (a < m * k.numSeg ↔ b < m * k.numSeg)) : Ok' (aWritePM E cfg k m n) (IaTw P) := by
  refine Sat.intro_ok fun ia h => ?_
  unfold aWritePM at h
  refine IaTw.of_view (tw_pre iaV (fun r j x y => ∃ st step, k.iStep.rd (r % k.numSeg) = .ok st ∧ useField st = .ok step ∧
    y = (cellCurrent E cfg.hrs step (k.gd.p.get r j), cellCurrent E cfg.hrs step (k.gd.m.get r j), x.2.2.1, x.2.2.2)) hi.view hm ?_ ?_ h)
  · rintro a b j x y z hab ⟨st, step, h1, h2, rfl⟩ ⟨st', step', h3, h4, rfl⟩
    rw [hp a b hab, h3, ok_inj] at h1
    subst h1
    rw [h2, ok_inj] at h4
    subst h4
    rw [hg.p a b hab, hg.m a b hab]
  · intro r j _ _ st hst s t e
    simp only [bind_eq_ok, Mat.rd_eq_ok] at e
    obtain ⟨step, h1, x, ⟨-, rfl⟩, p, h2, y, ⟨-, rfl⟩, q, h3, e⟩ := e
    rw [← ok_inj.1 e, Mat.wr_inv h2, Mat.wr_inv h3]
    unfold iaV
    dsimp only
    refine ⟨⟨st, step, hst, h1, ?_⟩, fun a c hn => ?_⟩
    · rw [if_pos ⟨rfl, rfl⟩, if_pos ⟨rfl, rfl⟩]
    · rw [if_neg hn, if_neg hn]

theorem tw_aWriteP (hg : GdTw P i i' k.gd) (hi : IaTw P k.ia) (hp : ∀ a b, P a b → a % k.numSeg = b % k.numSeg)
    (hm : ∀ a b, P a b → (a < m * k.numSeg ↔ b < m * k.numSeg)) : Ok' (aWriteP E cfg k m n) (IaTw P) := by
  refine Sat.intro_ok fun ia h => ?_
  unfold aWriteP at h
  refine IaTw.of_view (tw_pre iaV (fun r j x y => ∃ st step, k.iStep.rd (r % k.numSeg) = .ok st ∧ useField st = .ok step ∧
    y = (cellCurrent E cfg.hrs step (k.gd.p.get r j), x.2.1, x.2.2.1, x.2.2.2)) hi.view hm ?_ ?_ h)
  · rintro a b j x y z hab ⟨st, step, h1, h2, rfl⟩ ⟨st', step', h3, h4, rfl⟩
    rw [hp a b hab, h3, ok_inj] at h1
    subst h1
    rw [h2, ok_inj] at h4
    subst h4
    rw [hg.p a b hab]
  · intro r j _ _ st hst s t e
    simp only [bind_eq_ok, Mat.rd_eq_ok] at e
    obtain ⟨step, h1, x, ⟨-, rfl⟩, p, h2, e⟩ := e
    rw [← ok_inj.1 e, Mat.wr_inv h2]
    unfold iaV
    dsimp only
    refine ⟨⟨st, step, hst, h1, ?_⟩, fun a c hn => ?_⟩
    · rw [if_pos ⟨rfl, rfl⟩]
    · rw [if_neg hn]

section
variable (hh : cfg.hrsNoise ≤ 0) (hl : cfg.lrsNoise ≤ 0) (hm : ∀ a b, P a b → (a < m ↔ b < m))
include hh hl hm

theorem tw_aWritePMBnnTnn {r : Nat} (hg : GdTw P i i' k.gd) (hi : IaTw P k.ia) :
    Ok' (aWritePMBnnTnn E cfg k r m n) fun x => IaTw P x.1 := by
  refine Sat.intro_ok fun ia h => ?_
  unfold aWritePMBnnTnn at h
  set step := E.fsub cfg.lrs cfg.hrs
  refine IaTw.of_view (tw_view (fun s : Ia K × Nat => iaV s.1) (fun r j x y =>
    y = (cellCurrent E cfg.hrs step (k.gd.p.get r j), cellCurrent E cfg.hrs step (k.gd.m.get r j),
      cellCurrent E cfg.hrs step (k.gd.p.get r j), cellCurrent E cfg.hrs step (k.gd.m.get r j))) hi.view hm ?_ ?_ h)
  · rintro a b j x y z hab rfl rfl
    rw [hg.p a b hab, hg.m a b hab]
  · intro r j _ _ s t e
    simp only [bind_eq_ok, Mat.rd_eq_ok] at e
    obtain ⟨x, ⟨-, rfl⟩, x', h1, p, h2, p', h3, y, ⟨-, rfl⟩, y', h4, q, h5, q', h6, e⟩ := e
    rw [← ok_inj.1 e, Mat.wr_inv h2, Mat.wr_inv h3, Mat.wr_inv h5, Mat.wr_inv h6, addNoise_quiet hh hl h1, addNoise_quiet hh hl h4]
    unfold iaV
    dsimp only
    refine ⟨?_, fun a c hn => ?_⟩
    · simp only [if_true, and_self]
    · simp only [if_neg hn]

theorem tw_aWritePBnn {r : Nat} (hg : GdTw P i i' k.gd) (hi : IaTw P k.ia) :
    Ok' (aWritePBnn E cfg k r m n) fun x => IaTw P x.1 := by
  refine Sat.intro_ok fun ia h => ?_
  unfold aWritePBnn at h
  set step := E.fsub cfg.lrs cfg.hrs
  refine IaTw.of_view (tw_view (fun s : Ia K × Nat => iaV s.1) (fun r j x y =>
    y = (cellCurrent E cfg.hrs step (k.gd.p.get r j), x.2.1,
      cellCurrent E cfg.hrs step (k.gd.p.get r j), x.2.2.2)) hi.view hm ?_ ?_ h)
  · rintro a b j x y z hab rfl rfl
    rw [hg.p a b hab]
  · intro r j _ _ s t e
    simp only [bind_eq_ok, Mat.rd_eq_ok] at e
    obtain ⟨x, ⟨-, rfl⟩, x', h1, p, h2, p', h3, e⟩ := e
    rw [← ok_inj.1 e, Mat.wr_inv h2, Mat.wr_inv h3, addNoise_quiet hh hl h1]
    unfold iaV
    dsimp only
    refine ⟨?_, fun a c hn => ?_⟩
    · simp only [if_true, and_self]
    · simp only [if_neg hn]

theorem tw_addC2C {mp : Mapper K} (hi : IaTw P mp.core.ia) :
    Ok' (addC2C E cfg mp m n) fun mp' => ∃ ia, mp'.core = { mp.core with ia := ia } ∧ IaTw P ia := by
  unfold addC2C
  refine Sat.bind (P := fun x : Ia K × Nat => IaTw P x.1) (Sat.intro_ok fun ia h => ?_) fun x hx => ⟨x.1, rfl, hx⟩
  refine IaTw.of_view (tw_view (fun s : Ia K × Nat => iaV s.1) (fun r j x y =>
    y = (x.2.2.1, x.2.2.2, x.2.2.1, x.2.2.2)) hi.view hm ?_ ?_ h)
  · rintro a b j x y z hab rfl rfl
    rfl
  · intro r j _ _ s t e
    simp only [bind_eq_ok, Mat.rd_eq_ok] at e
    obtain ⟨a, ⟨-, rfl⟩, x, ⟨-, rfl⟩, x', h1, p, h2, b, ⟨-, rfl⟩, y, ⟨-, rfl⟩, y', h4, q, h5, e⟩ := e
    rw [← ok_inj.1 e, Mat.wr_inv h2, Mat.wr_inv h5, addNoise_quiet hh hl h1, addNoise_quiet hh hl h4]
    unfold iaV
    dsimp only
    refine ⟨?_, fun a c hn => ?_⟩
    · simp only [if_true, and_self]
    · simp only [if_neg hn]

omit hh hl in
theorem tw_removeC2C {mp : Mapper K} (hi : IaTw P mp.core.ia) :
    Ok' (removeC2C mp m n) fun mp' => ∃ ia, mp'.core = { mp.core with ia := ia } ∧ IaTw P ia := by
  unfold removeC2C
  refine Sat.bind (P := fun x : Ia K => IaTw P x) (Sat.intro_ok fun ia h => ?_) fun x hx => ⟨x, rfl, hx⟩
  refine IaTw.of_view (tw_view iaV (fun r j x y =>
    y = (x.2.2.1, x.2.2.2, x.2.2.1, x.2.2.2)) hi.view hm ?_ ?_ h)
  · rintro a b j x y z hab rfl rfl
    rfl
  · intro r j _ _ s t e
    simp only [bind_eq_ok, Mat.rd_eq_ok] at e
    obtain ⟨a, ⟨-, rfl⟩, p, h2, b, ⟨-, rfl⟩, q, h5, e⟩ := e
    rw [← ok_inj.1 e, Mat.wr_inv h2, Mat.wr_inv h5]
    unfold iaV
    dsimp only
    refine ⟨?_, fun a c hn => ?_⟩
    · simp only [if_true, and_self]
    · simp only [if_neg hn]

end

/-! ## The solver -/

theorem tw_divVRead {s : Solver K} {A : Mat K} (h : TwM P A) (hm : ∀ a b, P a b → (a < s.mXbar ↔ b < s.mXbar)) :
    Ok' (divVRead E cfg s A) (TwM P) := by
  refine Sat.intro_ok fun G hG => ?_
  unfold divVRead at hG
  refine tw_view (fun A : Mat K => A.get) (fun r j _ y => E.fdiv (A.get r j) (-s.vRead) = .ok y) (fun _ _ _ _ => rfl) hm ?_ ?_ hG
  · intro a b j x y z hab h1 h2
    rw [h a b hab, h2] at h1
    exact (ok_inj.1 h1).symm
  · intro r j _ _ s t e
    simp only [bind_eq_ok, Mat.rd_eq_ok] at e
    obtain ⟨x, ⟨-, rfl⟩, y, h1, h2⟩ := e
    rw [Mat.wr_inv h2]
    dsimp only
    refine ⟨?_, fun a c hn => ?_⟩
    · rw [if_pos ⟨rfl, rfl⟩]; exact h1
    · rw [if_neg hn]

/-- An optional second matrix. -/
def OptTw (P : Nat → Nat → Prop) (B : Option (Mat K)) : Prop := ∀ A, B = some A → TwM P A

theorem tw_divVReadOpt {s : Solver K} {B : Option (Mat K)} (h : OptTw P B) (hm : ∀ a b, P a b → (a < s.mXbar ↔ b < s.mXbar)) :
    Ok' (divVReadOpt E cfg s B) (OptTw P) := by
  cases B with
  | none => exact fun A hA => by cases hA
  | some A =>
    unfold divVReadOpt
    dsimp only
    refine Sat.ite (fun _ A hA => by cases hA) fun _ => ?_
    exact Sat.bind (tw_divVRead (h A rfl) hm) fun G hG A hA => by cases hA; exact hG

theorem tw_wEncode {s : Solver K} {A : Mat K} {B : Option (Mat K)} (hm : i < m ↔ i' < m) (hA : TwM (atRows i i') A)
    (hB : OptTw (atRows i i') B) :
    Ok' (wEncode s A B m n) fun G => ∀ c d, colP s.mode i i' c d → ∀ j, G.get j c = G.get j d := by
  refine Sat.intro_ok fun G hG => ?_
  unfold wEncode at hG
  unfold colP
  have par : ∀ x : Nat, ∃ y, x = 2 * y ∨ x = 2 * y + 1 := fun x => ⟨x / 2, by omega⟩
  split at hG <;> rename_i hw <;> (try rw [hw]) <;> (try dsimp only)
  · unfold wEncSingle at hG
    have h := tw_view (P := atRows i i') (fun (G : Mat K) c j => G.get j c) (fun r j _ y => y = A.get r j) (fun _ _ _ _ => rfl)
      (fun _ _ h => atRows_iff hm h) ?_ ?_ hG
    · rintro c d hcd j
      exact h c d hcd j
    · rintro a b j x y z hab rfl rfl
      rw [hA a b hab]
    · intro r j _ _ s t e
      simp only [bind_eq_ok, Mat.rd_eq_ok] at e
      obtain ⟨x, ⟨-, rfl⟩, h2⟩ := e
      rw [Mat.wr_inv h2]
      dsimp only
      refine ⟨?_, fun a c hn => ?_⟩
      · rw [if_pos ⟨rfl, rfl⟩]
      · rw [if_neg fun h => hn ⟨h.2, h.1⟩]
  · rename_i B
    have hB := hB B rfl
    unfold wEncDoubleCol at hG
    have h := tw_view (P := atRows i i') (fun (G : Mat K) c j => (G.get j (2 * c), G.get j (2 * c + 1))) (fun r j _ y => y = (A.get r j, B.get r j))
      (fun _ _ _ _ => rfl) (fun _ _ h => atRows_iff hm h) ?_ ?_ hG
    · rintro c d ⟨h1, h2, h3⟩ j
      have e := h i i' ⟨rfl, rfl⟩ j
      have e1 : G.get j (2 * i) = G.get j (2 * i') := congrArg Prod.fst e
      have e2 : G.get j (2 * i + 1) = G.get j (2 * i' + 1) := congrArg Prod.snd e
      rcases Nat.mod_two_eq_zero_or_one c with hc | hc
      · rw [show c = 2 * i by omega, show d = 2 * i' by omega, e1]
      · rw [show c = 2 * i + 1 by omega, show d = 2 * i' + 1 by omega, e2]
    · rintro a b j x y z hab rfl rfl
      rw [hA a b hab, hB a b hab]
    · intro r j _ _ s t e
      simp only [bind_eq_ok, Mat.rd_eq_ok] at e
      obtain ⟨x, ⟨-, rfl⟩, y, ⟨-, rfl⟩, g1, h2, h3⟩ := e
      rw [Mat.wr_inv h3, Mat.wr_inv h2]
      dsimp only
      refine ⟨?_, fun a c hn => ?_⟩
      · rw [if_neg (by omega), if_pos ⟨rfl, rfl⟩, if_pos ⟨rfl, rfl⟩]
      · rw [if_neg (by omega), if_neg (by omega), if_neg (by omega), if_neg (by omega)]
  · rename_i B
    have hB := hB B rfl
    unfold wEncDoubleRow at hG
    have h := tw_view (P := atRows i i') (fun (G : Mat K) c j => (G.get (2 * j) c, G.get (2 * j + 1) c)) (fun r j _ y => y = (A.get r j, B.get r j))
      (fun _ _ _ _ => rfl) (fun _ _ h => atRows_iff hm h) ?_ ?_ hG
    · rintro c d ⟨rfl, rfl⟩ j
      have e := h c d ⟨rfl, rfl⟩ (j / 2)
      have e1 : G.get (2 * (j / 2)) c = G.get (2 * (j / 2)) d := congrArg Prod.fst e
      have e2 : G.get (2 * (j / 2) + 1) c = G.get (2 * (j / 2) + 1) d := congrArg Prod.snd e
      rcases Nat.mod_two_eq_zero_or_one j with hc | hc
      · rwa [show 2 * (j / 2) = j by omega] at e1
      · rwa [show 2 * (j / 2) + 1 = j by omega] at e2
    · rintro a b j x y z hab rfl rfl
      rw [hA a b hab, hB a b hab]
    · intro r j _ _ s t e
      simp only [bind_eq_ok, Mat.rd_eq_ok] at e
      obtain ⟨x, ⟨-, rfl⟩, y, ⟨-, rfl⟩, g1, h2, h3⟩ := e
      rw [Mat.wr_inv h3, Mat.wr_inv h2]
      dsimp only
      refine ⟨?_, fun a c hn => ?_⟩
      · rw [if_neg (by omega), if_pos ⟨rfl, rfl⟩, if_pos ⟨rfl, rfl⟩]
      · rw [if_neg (by omega), if_neg (by omega), if_neg (by omega), if_neg (by omega)]
  · rename_i B
    have hB := hB B rfl
    unfold wEncQuad at hG
    have h := tw_view (P := atRows i i') (fun (G : Mat K) c j => (G.get (2 * j) (2 * c), G.get (2 * j + 1) (2 * c), G.get (2 * j) (2 * c + 1),
        G.get (2 * j + 1) (2 * c + 1))) (fun r j _ y => y = (A.get r j, B.get r j, B.get r j, A.get r j))
      (fun _ _ _ _ => rfl) (fun _ _ h => atRows_iff hm h) ?_ ?_ hG
    · rintro c d ⟨h1, h2, h3⟩ j
      have e := h i i' ⟨rfl, rfl⟩ (j / 2)
      have e1 : G.get (2 * (j / 2)) (2 * i) = G.get (2 * (j / 2)) (2 * i') := congrArg (·.1) e
      have e2 : G.get (2 * (j / 2) + 1) (2 * i) = G.get (2 * (j / 2) + 1) (2 * i') := congrArg (·.2.1) e
      have e3 : G.get (2 * (j / 2)) (2 * i + 1) = G.get (2 * (j / 2)) (2 * i' + 1) := congrArg (·.2.2.1) e
      have e4 : G.get (2 * (j / 2) + 1) (2 * i + 1) = G.get (2 * (j / 2) + 1) (2 * i' + 1) := congrArg (·.2.2.2) e
      rcases Nat.mod_two_eq_zero_or_one c with hc | hc <;> rcases Nat.mod_two_eq_zero_or_one j with hj | hj
      · rw [show c = 2 * i by omega, show d = 2 * i' by omega]
        rwa [show 2 * (j / 2) = j by omega] at e1
      · rw [show c = 2 * i by omega, show d = 2 * i' by omega]
        rwa [show 2 * (j / 2) + 1 = j by omega] at e2
      · rw [show c = 2 * i + 1 by omega, show d = 2 * i' + 1 by omega]
        rwa [show 2 * (j / 2) = j by omega] at e3
      · rw [show c = 2 * i + 1 by omega, show d = 2 * i' + 1 by omega]
        rwa [show 2 * (j / 2) + 1 = j by omega] at e4
    · rintro a b j x y z hab rfl rfl
      rw [hA a b hab, hB a b hab]
    · intro r j _ _ s t e
      simp only [bind_eq_ok, Mat.rd_eq_ok] at e
      obtain ⟨x, ⟨-, rfl⟩, y, ⟨-, rfl⟩, g1, h2, g2, h3, g3, h4, h5⟩ := e
      rw [Mat.wr_inv h5, Mat.wr_inv h4, Mat.wr_inv h3, Mat.wr_inv h2]
      dsimp only
      refine ⟨?_, fun a c hn => ?_⟩
      · simp only [true_and, and_true, if_true, and_self]
        simp only [show ¬(2 * j = 2 * j + 1) by omega, show ¬(2 * r = 2 * r + 1) by omega, show ¬(2 * j + 1 = 2 * j) by omega,
          show ¬(2 * r + 1 = 2 * r) by omega, if_false, false_and, and_false]
      · simp only [show ¬(2 * c = 2 * j + 1) by omega, show ¬(2 * a = 2 * r + 1) by omega, show ¬(2 * c + 1 = 2 * j) by omega,
          show ¬(2 * a + 1 = 2 * r) by omega, if_false, false_and, and_false]
        rw [if_neg (by omega), if_neg (by omega), if_neg (by omega), if_neg (by omega)]
  · cases hG

theorem tw_pushSolver {md : Mode} {q : Option (Solver K)} {A : Mat K} {B : Option (Mat K)} (hm : i < m ↔ i' < m)
    (hq : SolTw md i i' q) (hA : TwM (atRows i i') A) (hB : OptTw (atRows i i') B) :
    Ok' (pushSolver E cfg q A B m n) (SolTw md i i') := by
  unfold pushSolver
  refine Sat.ite (fun _ => ?_) fun _ => hq
  cases q with
  | none => trivial
  | some s =>
    obtain ⟨h1, h2, -⟩ := hq s rfl
    dsimp only
    unfold setConductance
    refine Sat.bind (P := fun s => SolTw md i i' (some s)) ?_ fun s h => h
    refine Sat.bind (tw_divVRead hA fun _ _ h => atRows_iff h2 h) fun x hx => ?_
    refine Sat.bind (tw_divVReadOpt hB fun _ _ h => atRows_iff h2 h) fun y hy => ?_
    refine Sat.bind (tw_wEncode hm hx hy) fun z hz => ?_
    refine Sat.ite (fun _ => trivial) fun _ => Sat.bind Ok'.any fun w _ => ?_
    intro t ht
    cases ht
    refine ⟨h1, h2, fun g u hg c d hcd j => ?_⟩
    cases hg
    exact hz c d (by rw [h1]; exact hcd) j

end

end Acs
