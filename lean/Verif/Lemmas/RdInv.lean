import Verif.Lemmas.AWrite

/-!
# Inversion of the read-disturb functions

What a read-disturb function did, cell by cell, if it returned.
-/

set_option linter.unusedSectionVars false

namespace Acs

open Spec

/-! ## Loops that visit every cell once -/

section
variable {σ β : Type}

theorem row_inv {n i : Nat} {f : Nat → σ → C σ} {s t : σ} (view : σ → Nat → Nat → β)
    (Q : Nat → Nat → β → β → Prop) (I : σ → Prop) (h0 : I s)
    (hs : ∀ j, j < n → ∀ s t, I s → f j s = .ok t → I t ∧ Q i j (view s i j) (view t i j) ∧
      ∀ r k, ¬(r = i ∧ k = j) → view t r k = view s r k)
    (h : loop n f s = .ok t) : I t ∧ ∀ r k, if r = i ∧ k < n then Q r k (view s r k) (view t r k)
      else view t r k = view s r k := by
  induction n generalizing t with
  | zero =>
    rw [loop_zero, ok_inj] at h
    subst h
    exact ⟨h0, fun r k => by rw [if_neg (by omega)]⟩
  | succ n ih =>
    rw [loop_succ, bind_eq_ok] at h
    obtain ⟨u, h1, h2⟩ := h
    obtain ⟨hu, hv⟩ := ih (fun j hj => hs j (by omega)) h1
    obtain ⟨ht, hq, hw⟩ := hs n (by omega) u t hu h2
    refine ⟨ht, fun r k => ?_⟩
    have e := hv r k
    by_cases hr : r = i ∧ k = n
    · obtain ⟨rfl, rfl⟩ := hr
      rw [if_neg (by omega)] at e
      rw [if_pos (by omega), ← e]
      exact hq
    · rw [hw r k hr]
      by_cases hk : r = i ∧ k < n
      · rw [if_pos hk] at e; rw [if_pos (by omega)]; exact e
      · rw [if_neg hk] at e; rw [if_neg (by omega)]; exact e

theorem cells_inv' {m n : Nat} {w : σ → Nat} {f : Nat → Nat → σ → C σ} {s t : σ} (view : σ → Nat → Nat → β)
    (Q : Nat → Nat → β → β → Prop) (I : σ → Prop) (hw : ∀ s, I s → w s = n) (h0 : I s)
    (hs : ∀ i j, i < m → j < n → ∀ s t, I s → f i j s = .ok t → I t ∧
      Q i j (view s i j) (view t i j) ∧ ∀ r k, ¬(r = i ∧ k = j) → view t r k = view s r k)
    (h : loop m (fun i st => loop (w st) (f i) st) s = .ok t) :
    I t ∧ ∀ r k, if r < m ∧ k < n then Q r k (view s r k) (view t r k)
      else view t r k = view s r k := by
  induction m generalizing t with
  | zero =>
    rw [loop_zero, ok_inj] at h
    subst h
    exact ⟨h0, fun r k => by rw [if_neg (by omega)]⟩
  | succ m ih =>
    rw [loop_succ, bind_eq_ok] at h
    obtain ⟨u, h1, h2⟩ := h
    obtain ⟨hu, hv⟩ := ih (fun i j hi => hs i j (by omega)) h1
    rw [hw u hu] at h2
    obtain ⟨ht, hw⟩ := row_inv view Q I hu (fun j hj => hs m j (by omega) hj) h2
    refine ⟨ht, fun r k => ?_⟩
    have e := hv r k
    have e' := hw r k
    by_cases hr : r = m ∧ k < n
    · rw [if_pos hr] at e'
      rw [if_neg (by omega)] at e
      rw [if_pos (by omega), ← e]
      exact e'
    · rw [if_neg hr] at e'
      rw [e']
      by_cases hk : r < m ∧ k < n
      · rw [if_pos hk] at e; rw [if_pos (by omega)]; exact e
      · rw [if_neg hk] at e; rw [if_neg (by omega)]; exact e

theorem cells_inv {m n : Nat} {f : Nat → Nat → σ → C σ} {s t : σ} (view : σ → Nat → Nat → β)
    (Q : Nat → Nat → β → β → Prop) (I : σ → Prop) (h0 : I s)
    (hs : ∀ i j, i < m → j < n → ∀ s t, I s → f i j s = .ok t → I t ∧
      Q i j (view s i j) (view t i j) ∧ ∀ r k, ¬(r = i ∧ k = j) → view t r k = view s r k)
    (h : loop m (fun i st => loop n (f i) st) s = .ok t) :
    I t ∧ ∀ r k, if r < m ∧ k < n then Q r k (view s r k) (view t r k)
      else view t r k = view s r k :=
  cells_inv' (w := fun _ => n) view Q I (fun _ _ => rfl) h0 hs h

theorem Mat.wr_inv {A B : Mat β} {i j : Nat} {a : β} (h : A.wr i j a = .ok B) :
    B = ⟨A.rows, A.cols, fun r k => if r = i ∧ k = j then a else A.get r k⟩ := by
  unfold Mat.wr at h
  split at h
  · exact (ok_inj.1 h).symm
  · cases h

theorem updM_inv {R N : Nat} {f : Nat → Nat → β → C β} {A B : Mat β} (h : updM R N f A = .ok B) :
    ∀ r k, if r < R ∧ k < N then f r k (A.get r k) = .ok (B.get r k) else B.get r k = A.get r k := by
  unfold updM at h
  refine (cells_inv (fun (A : Mat β) => A.get) (fun r k a b => f r k a = .ok b) (fun _ => True) trivial
    (fun i j hi hj s t _ h => ?_) h).2
  rw [bind_eq_ok] at h
  obtain ⟨a, h1, h⟩ := h
  rw [bind_eq_ok] at h
  obtain ⟨b, h2, h⟩ := h
  rw [Mat.rd_eq_ok] at h1
  rw [Mat.wr_inv h]
  dsimp only
  rw [if_pos ⟨rfl, rfl⟩, h1.2]
  exact ⟨trivial, h2, fun r k hr => by rw [if_neg hr]⟩

end

section
variable {K : Type} [Field K] [LinearOrder K] [IsStrictOrderedRing K] [FloorRing K]
variable {E : Env K} {cfg : Cfg K} {c c' : Core K} {x x' : Xbar K} {rd rd' : Rd K}
variable {mat vec res : Vec Int} {m n : Nat} {l : String}

/-! ## Counters -/

theorem updateCycles_inv {up um : Mat Bool} (hs : RdShape cfg rd)
    (h : updateCycles rd up um = .ok rd') :
    rd' = { rd with cycP := rd'.cycP, cycM := rd'.cycM } ∧
    (∀ r k, rd'.cycP.get r k = rd.cycP.get r k + if r < cfg.R ∧ k < cfg.N then (up.get r k).toNat else 0) ∧
    ∀ r k, rd'.cycM.get r k = rd.cycM.get r k + if r < cfg.R ∧ k < cfg.N then (um.get r k).toNat else 0 := by
  unfold updateCycles at h
  rw [bind_eq_ok] at h
  obtain ⟨a, h1, h⟩ := h
  rw [bind_eq_ok] at h
  obtain ⟨b, h2, h⟩ := h
  rw [ok_inj] at h
  subst h
  rw [hs.cycP.1, hs.cycP.2] at h1 h2
  refine ⟨rfl, fun r k => ?_, fun r k => ?_⟩
  · have := updM_inv h1 r k
    split at this
    · next hr =>
      rw [bind_eq_ok] at this
      obtain ⟨e, h3, h4⟩ := this
      rw [Mat.rd_eq_ok] at h3
      rw [ok_inj] at h4
      rw [if_pos hr, h3.2]; exact h4.symm
    · next hr => rw [if_neg hr]; exact this
  · have := updM_inv h2 r k
    split at this
    · next hr =>
      rw [bind_eq_ok] at this
      obtain ⟨e, h3, h4⟩ := this
      rw [Mat.rd_eq_ok] at h3
      rw [ok_inj] at h4
      rw [if_pos hr, h3.2]; exact h4.symm
    · next hr => rw [if_neg hr]; exact this

theorem updateReads_inv (h : updateReads cfg rd m n = .ok rd') :
    rd' = { rd with rdP := rd'.rdP, rdM := rd'.rdM } ∧
    (∀ r k, rd'.rdP.get r k = rd.rdP.get r k + if r < m * cfg.S ∧ k < n then 1 else 0) ∧
    ∀ r k, rd'.rdM.get r k = rd.rdM.get r k + if r < m * cfg.S ∧ k < n then 1 else 0 := by
  unfold updateReads at h
  rw [bind_eq_ok] at h
  obtain ⟨a, h1, h⟩ := h
  rw [bind_eq_ok] at h
  obtain ⟨b, h2, h⟩ := h
  rw [ok_inj] at h
  subst h
  refine ⟨rfl, fun r k => ?_, fun r k => ?_⟩
  · have := updM_inv h1 r k
    split at this
    · next hr => rw [if_pos hr]; exact (ok_inj.1 this).symm
    · next hr => rw [if_neg hr]; exact this
  · have := updM_inv h2 r k
    split at this
    · next hr => rw [if_pos hr]; exact (ok_inj.1 this).symm
    · next hr => rw [if_neg hr]; exact this

theorem resetReads_inv (h : resetReads cfg rd = .ok rd') :
    rd' = { rd with rdP := rd'.rdP, rdM := rd'.rdM } ∧
    ∀ r k, r < cfg.R → k < cfg.N → rd'.rdP.get r k = 0 ∧ rd'.rdM.get r k = 0 := by
  unfold resetReads at h
  rw [bind_eq_ok] at h
  obtain ⟨a, h1, h⟩ := h
  rw [bind_eq_ok] at h
  obtain ⟨b, h2, h⟩ := h
  rw [ok_inj] at h
  subst h
  refine ⟨rfl, fun r k hr hk => ⟨?_, ?_⟩⟩
  · have := updM_inv h1 r k
    rw [if_pos ⟨hr, hk⟩] at this
    exact (ok_inj.1 this).symm
  · have := updM_inv h2 r k
    rw [if_pos ⟨hr, hk⟩] at this
    exact (ok_inj.1 this).symm

theorem resetMat_inv {p q : Mat Int} {b : Mat Bool} (h : resetMat cfg p q = .ok b) (r k : Nat)
    (hr : r < cfg.R) (hk : k < cfg.N) : b.get r k = decide (p.get r k = 1 ∧ q.get r k = 0) := by
  unfold resetMat at h
  have := updM_inv h r k
  rw [if_pos ⟨hr, hk⟩, bind_eq_ok] at this
  obtain ⟨a, h1, h2⟩ := this
  rw [Mat.rd_eq_ok] at h1
  rw [h1.2]
  split at h2
  · next ha =>
    rw [bind_eq_ok] at h2
    obtain ⟨d, h3, h2⟩ := h2
    rw [Mat.rd_eq_ok] at h3
    rw [h3.2]
    split at h2
    · next hd => rw [← ok_inj.1 h2]; simp [ha, hd]
    · next hd => rw [← ok_inj.1 h2]; simp [hd, Mat.const]
  · next ha => rw [← ok_inj.1 h2]; simp [ha, Mat.const]

theorem lrsMat_inv {g : Mat Int} {k0 : Nat} {b : Mat Bool × Nat} (h : lrsMat cfg g k0 = .ok b) (r k : Nat)
    (hr : r < cfg.R) (hk : k < cfg.N) : b.1.get r k = decide (g.get r k = 1) := by
  unfold lrsMat at h
  have := (cells_inv (fun (s : Mat Bool × Nat) => s.1.get)
    (fun r k a b => b = (a || decide (g.get r k = 1))) (fun _ => True) trivial
    (fun i j hi hj s t _ h => ?_) h).2 r k
  · rw [if_pos ⟨hr, hk⟩] at this
    rw [this]
    simp [Mat.const]
  · rw [bind_eq_ok] at h
    obtain ⟨a, h1, h⟩ := h
    rw [Mat.rd_eq_ok] at h1
    rw [h1.2]
    split at h
    · next ha =>
      rw [bind_eq_ok] at h
      obtain ⟨d, h3, h⟩ := h
      rw [ok_inj] at h
      subst h
      rw [Mat.wr_inv h3]
      simp only [and_self, if_true, ha, decide_true, Bool.or_true, true_and]
      intro r k hr
      rw [if_neg hr]
    · next ha =>
      rw [ok_inj] at h
      subst h
      simp [ha]

/-! ## Disturb -/

/-- The read-disturb parameters of the configuration. -/
def Params (E : Env K) (cfg : Cfg K) (rd : Rd K) : Prop :=
  ∃ rd0, mkRd E cfg = .ok rd0 ∧ rd.expTt = rd0.expTt ∧ rd.p = rd0.p

theorem rdTime_congr {rd rd' : Rd K} (h : rd.expTt = rd'.expTt) (k : Nat) :
    rdTime E rd k = rdTime E rd' k := by
  unfold rdTime; rw [h]

theorem rdFactor_congr {rd rd' : Rd K} (h : rd.expTt = rd'.expTt) (h' : rd.p = rd'.p) (r k : Nat) :
    rdFactor E cfg rd r k = rdFactor E cfg rd' r k := by
  unfold rdFactor; rw [rdTime_congr h, h']

/-- Effect of `rd_update_conductance` on one array. -/
def Disturbed (E : Env K) (cfg : Cfg K) (rd : Rd K) (reads cyc : Nat → Nat → Nat) (g : Nat → Nat → Int)
    (y y' : Nat → Nat → K) : Prop :=
  ∀ r k, if r < cfg.R ∧ k < cfg.N ∧ g r k = 1 then
    ∃ f, rdFactor E cfg rd (reads r k) (cyc r k) = .ok f ∧ y' r k = E.fmul cfg.lrs f
    else y' r k = y r k

theorem rdUpdMat_inv {reads : Nat → Nat → C Nat} {cyc : Mat Nat} {g : Mat Int} {A : Mat K} {o : Bool}
    {b : Mat K × Bool} {R : Nat → Nat → Nat} (hc : cyc.Is cfg.R cfg.N)
    (hR : ∀ i j k, reads i j = .ok k → k = R i j)
    (h : rdUpdMat E cfg rd reads cyc g A o = .ok b) :
    Disturbed E cfg rd R cyc.get g.get A.get b.1.get := by
  unfold rdUpdMat at h
  rw [hc.1, hc.2] at h
  intro r k
  have := (cells_inv (fun (s : Mat K × Bool) => s.1.get)
    (fun r k a b => if g.get r k = 1 then
      ∃ f, rdFactor E cfg rd (R r k) (cyc.get r k) = .ok f ∧ b = E.fmul cfg.lrs f else b = a)
    (fun _ => True) trivial (fun i j hi hj s t _ h => ?_) h).2 r k
  · by_cases hr : r < cfg.R ∧ k < cfg.N
    · rw [if_pos hr] at this
      simp only [hr, true_and]
      exact this
    · rw [if_neg hr] at this
      rw [if_neg fun h => hr ⟨h.1, h.2.1⟩]
      exact this
  · rw [bind_eq_ok] at h
    obtain ⟨a, h1, h⟩ := h
    rw [Mat.rd_eq_ok] at h1
    rw [h1.2]
    split at h
    · next ha =>
      rw [bind_eq_ok] at h
      obtain ⟨q, h2, h⟩ := h
      rw [bind_eq_ok] at h
      obtain ⟨cy, h3, h⟩ := h
      rw [bind_eq_ok] at h
      obtain ⟨f, h4, h⟩ := h
      rw [bind_eq_ok] at h
      obtain ⟨B, h5, h⟩ := h
      rw [ok_inj] at h
      subst h
      rw [Mat.rd_eq_ok] at h3
      rw [Mat.wr_inv h5, if_pos ha]
      refine ⟨trivial, ⟨f, ?_, by simp⟩, fun r k hr => by simp only; rw [if_neg hr]⟩
      rw [← hR _ _ _ h2, h3.2]
      exact h4
    · next ha =>
      rw [ok_inj] at h
      subst h
      rw [if_neg ha]
      exact ⟨trivial, rfl, fun _ _ _ => rfl⟩

/-- Effect of `rd_update_conductance`. -/
structure Updated (E : Env K) (cfg : Cfg K) (rd : Rd K) (rp rm : Nat → Nat → Nat) (c c' : Core K) :
    Prop where
  frame : c' = { c with ia := c'.ia }
  pO : c'.ia.pO = c.ia.pO
  mO : c'.ia.mO = c.ia.mO
  p : Disturbed E cfg rd rp rd.cycP.get c.gd.p.get c.ia.p.get c'.ia.p.get
  m : c.isDiff = true → Disturbed E cfg rd rm rd.cycM.get c.gd.m.get c.ia.m.get c'.ia.m.get
  m' : c.isDiff = false → c'.ia.m = c.ia.m
  shape : CoreShape E cfg c → CoreShape E cfg c'

theorem rdUpdate_inv {rp rm : Nat → Nat → C Nat} {RP RM : Nat → Nat → Nat} (hs : RdShape cfg rd)
    (hp : ∀ i j k, rp i j = .ok k → k = RP i j) (hm : ∀ i j k, rm i j = .ok k → k = RM i j)
    (h : rdUpdate E cfg c rd rp rm = .ok (c', rd')) :
    Updated E cfg rd RP RM c c' ∧ rd' = { rd with oob := rd'.oob } := by
  obtain ⟨h1, h2, h3, h4⟩ := rdUpdate_frame h
  refine ⟨?_, h2⟩
  have h5 : CoreShape E cfg c → CoreShape E cfg c' := fun hc =>
    ((sat_rdUpdate lax_true hc hs (fun i j _ _ => Sat.any fun _ => trivial)
        fun i j _ _ => Sat.any fun _ => trivial).of_ok h).1
  unfold rdUpdate at h
  rw [bind_eq_ok] at h
  obtain ⟨p, hp', h⟩ := h
  have e1 := rdUpdMat_inv hs.cycP hp hp'
  split at h
  · next hd =>
    rw [bind_eq_ok] at h
    obtain ⟨q, hq', h⟩ := h
    have e2 := rdUpdMat_inv hs.cycM hm hq'
    rw [ok_inj, Prod.mk.injEq] at h
    obtain ⟨rfl, rfl⟩ := h
    exact ⟨h1, h3, h4, e1, fun _ => e2, fun h => absurd (h.symm.trans hd) (by simp), h5⟩
  · next hd =>
    rw [ok_inj, Prod.mk.injEq] at h
    obtain ⟨rfl, rfl⟩ := h
    exact ⟨h1, h3, h4, e1, fun h => absurd h hd, fun _ => rfl, h5⟩

/-! ## Cell-based refresh -/

/-- Effect of one half of `rd_cell_based_refresh`. -/
def Refreshed (E : Env K) (cfg : Cfg K) (g : Nat → Nat → Int) (s t : Nat → Nat → K × Nat × Nat) : Prop :=
  ∀ r k, if r < cfg.R ∧ k < cfg.N ∧ g r k = 1 ∧ rdOutside E cfg (s r k).1 = true then
    Varied E cfg.lrsNoise cfg.lrs (t r k).1 ∧ (t r k).2.1 = (s r k).2.1 + 1 ∧ (t r k).2.2 = 0
    else t r k = s r k

theorem rdRefMat_inv {g : Mat Int} {s t : RefSt K} (hA : s.A.Is cfg.R cfg.N)
    (h : rdRefMat E cfg g s = .ok t) :
    Refreshed E cfg g.get (fun r k => (s.A.get r k, s.cyc.get r k, s.rds.get r k))
      fun r k => (t.A.get r k, t.cyc.get r k, t.rds.get r k) := by
  unfold rdRefMat at h
  rw [hA.1] at h
  intro r k
  have := (cells_inv' (fun (s : RefSt K) r k => (s.A.get r k, s.cyc.get r k, s.rds.get r k))
    (fun r k a b => if g.get r k = 1 ∧ rdOutside E cfg a.1 = true then
      Varied E cfg.lrsNoise cfg.lrs b.1 ∧ b.2.1 = a.2.1 + 1 ∧ b.2.2 = 0 else b = a)
    (fun s => s.A.cols = cfg.N) (fun _ h => h) hA.2 (fun i j hi hj s t hI h => ?_) h).2 r k
  · by_cases hr : r < cfg.R ∧ k < cfg.N
    · rw [if_pos hr] at this
      simp only [hr, true_and]
      exact this
    · rw [if_neg hr] at this
      rw [if_neg fun h => hr ⟨h.1, h.2.1⟩]
      exact this
  · rw [bind_eq_ok] at h
    obtain ⟨a, h1, h⟩ := h
    rw [Mat.rd_eq_ok] at h1
    rw [h1.2]
    split at h
    · next ha =>
      rw [bind_eq_ok] at h
      obtain ⟨y, h2, h⟩ := h
      rw [Mat.rd_eq_ok] at h2
      rw [h2.2]
      split at h
      · next ho =>
        rw [bind_eq_ok] at h
        obtain ⟨z, h3, h⟩ := h
        rw [bind_eq_ok] at h
        obtain ⟨A', h4, h⟩ := h
        rw [bind_eq_ok] at h
        obtain ⟨cy, h5, h⟩ := h
        rw [bind_eq_ok] at h
        obtain ⟨cyc', h6, h⟩ := h
        rw [bind_eq_ok] at h
        obtain ⟨rds', h7, h⟩ := h
        rw [bind_eq_ok] at h
        obtain ⟨cnt', h8, h⟩ := h
        rw [ok_inj] at h
        subst h
        rw [Mat.rd_eq_ok] at h5
        rw [Mat.wr_inv h4, Mat.wr_inv h6, Mat.wr_inv h7, if_pos ⟨ha, ho⟩, h5.2]
        refine ⟨hI, ⟨?_, by simp, by simp⟩, fun r k hr => by simp only; rw [if_neg hr, if_neg hr, if_neg hr]⟩
        simp only [and_self, if_true]
        have h9 := (sat_addNoise (F := fun _ => True) fun h => absurd trivial h).of_ok h3
        rcases h9 with ⟨e, _⟩ | ⟨_, h9⟩
        · exact absurd e (by decide)
        · exact h9
      · next ho =>
        rw [ok_inj] at h
        subst h
        rw [if_neg fun h => ho h.2]
        exact ⟨hI, by rw [h2.2], fun _ _ _ => rfl⟩
    · next ha =>
      rw [ok_inj] at h
      subst h
      rw [if_neg fun h => ha h.1]
      exact ⟨hI, rfl, fun _ _ _ => rfl⟩


/-- Effect of `rd_cell_based_refresh`. -/
structure CellsRefreshed (E : Env K) (cfg : Cfg K) (c : Core K) (rd : Rd K) (c' : Core K) (rd' : Rd K) :
    Prop where
  frame : c' = { c with ia := c'.ia }
  rdFrame : rd' = { rd with cycP := rd'.cycP, cycM := rd'.cycM, rdP := rd'.rdP, rdM := rd'.rdM }
  pO : c'.ia.pO = c.ia.pO
  mO : c'.ia.mO = c.ia.mO
  p : Refreshed E cfg c.gd.p.get (fun r k => (c.ia.p.get r k, rd.cycP.get r k, rd.rdP.get r k))
      fun r k => (c'.ia.p.get r k, rd'.cycP.get r k, rd'.rdP.get r k)
  m : c.isDiff = true →
    Refreshed E cfg c.gd.m.get (fun r k => (c.ia.m.get r k, rd.cycM.get r k, rd.rdM.get r k))
      fun r k => (c'.ia.m.get r k, rd'.cycM.get r k, rd'.rdM.get r k)
  m' : c.isDiff = false → c'.ia.m = c.ia.m ∧ rd'.cycM = rd.cycM ∧ rd'.rdM = rd.rdM

theorem rdCellRefresh_inv {mp : Mapper K} {q : Mapper K × Rd K × Int} (hs : IaShape cfg mp.core.ia)
    (h : rdCellRefresh E cfg mp rd = .ok q) :
    CellsRefreshed E cfg mp.core rd q.1.core q.2.1 := by
  have hf := (rdCellRefresh_frame h).1
  unfold rdCellRefresh at h
  dsimp only at h
  rw [bind_eq_ok] at h
  obtain ⟨p, h1, h⟩ := h
  have e1 := rdRefMat_inv (cfg := cfg) hs.p h1
  split at h
  · next hd =>
    rw [bind_eq_ok] at h
    obtain ⟨q, h2, h⟩ := h
    have e2 := rdRefMat_inv (cfg := cfg) hs.m h2
    rw [ok_inj] at h
    subst h
    exact ⟨hf, rfl, rfl, rfl, e1, fun _ => e2, fun h => absurd (h.symm.trans hd) (by simp)⟩
  · next hd =>
    rw [ok_inj] at h
    subst h
    exact ⟨hf, rfl, rfl, rfl, e1, fun h => absurd h hd, fun _ => ⟨rfl, rfl, rfl⟩⟩

/-! ## Writes -/

theorem xWrite_rd {rd : Rd K} (hs : Shape E cfg x) (hrd : cfg.readDisturb = true) (hx : x.rd = some rd)
    (h : xWrite E cfg x mat m n = .ok x') :
    ∃ rd', x'.rd = some rd' ∧
      rd' = { rd with cycP := rd'.cycP, cycM := rd'.cycM, rdP := rd'.rdP, rdM := rd'.rdM } ∧
      (∀ r k, r < cfg.R → k < cfg.N →
        rd'.cycP.get r k = rd.cycP.get r k +
          (if x.mapper.core.gd.p.get r k = 1 ∧ x'.mapper.core.gd.p.get r k = 0 then 1 else 0) ∧
        rd'.cycM.get r k = rd.cycM.get r k +
          (if x.mapper.core.gd.m.get r k = 1 ∧ x'.mapper.core.gd.m.get r k = 0 then 1 else 0)) ∧
      (cfg.strategy = .cellBased → ∀ r k, r < cfg.R → k < cfg.N →
        rd'.rdP.get r k = 0 ∧ rd'.rdM.get r k = 0) ∧
      (cfg.strategy ≠ .cellBased → rd'.rdP = rd.rdP ∧ rd'.rdM = rd.rdM) := by
  have hf := xWrite_frame h
  unfold xWrite at h
  rw [bind_eq_ok] at h
  obtain ⟨q, h1, h⟩ := h
  obtain ⟨gd, hgd, hq⟩ := xWriteD_mapper h1
  rw [bind_eq_ok] at h
  obtain ⟨mp, h2, h⟩ := h
  rw [ok_inj] at h
  subst h
  have hgd' : mp.core.gd = gd := by
    have := hf.1; rw [hgd] at this; exact (ok_inj.1 this).symm
  unfold xWriteD at h1
  rw [if_pos hrd, bind_eq_ok] at h1
  obtain ⟨mp', h3, h1⟩ := h1
  have hmp : mp'.core.gd = gd := by
    unfold dWrite at h3
    rw [hgd, ok_bind, ok_inj] at h3
    subst h3; rfl
  rw [bind_eq_ok] at h1
  obtain ⟨up, h4, h1⟩ := h1
  rw [bind_eq_ok] at h1
  obtain ⟨um, h5, h1⟩ := h1
  rw [hx] at h1
  dsimp only at h1
  rw [bind_eq_ok] at h1
  obtain ⟨rd1, h6, h1⟩ := h1
  rw [bind_eq_ok] at h1
  obtain ⟨rd2, h7, h1⟩ := h1
  rw [ok_inj] at h1
  obtain ⟨rd0, hrd0, hsr⟩ := hs.rd hrd
  rw [hx, Option.some.injEq] at hrd0
  subst hrd0
  obtain ⟨c1, c2, c3⟩ := updateCycles_inv hsr h6
  rw [hmp] at h4 h5
  have key : ∀ rd3 : Rd K, rd3.cycP = rd1.cycP → rd3.cycM = rd1.cycM → ∀ r k, r < cfg.R → k < cfg.N →
        rd3.cycP.get r k = rd.cycP.get r k +
          (if x.mapper.core.gd.p.get r k = 1 ∧ mp.core.gd.p.get r k = 0 then 1 else 0) ∧
        rd3.cycM.get r k = rd.cycM.get r k +
          (if x.mapper.core.gd.m.get r k = 1 ∧ mp.core.gd.m.get r k = 0 then 1 else 0) := by
    intro rd3 e1 e2 r k hr hk
    have hb : ∀ P : Prop, [Decidable P] → (decide P).toNat = if P then 1 else 0 := fun P _ => by
      by_cases h : P <;> simp [h]
    rw [e1, e2, c2, c3, resetMat_inv h4 r k hr hk, resetMat_inv h5 r k hr hk, hgd', hb, hb]
    simp only [hr, hk, and_self, if_true]
  refine ⟨rd2, by rw [← h1], ?_⟩
  split at h7
  · next hst =>
    obtain ⟨d1, d2⟩ := resetReads_inv h7
    refine ⟨by rw [d1, c1], key rd2 (by rw [d1]) (by rw [d1]), fun _ => d2, fun h => absurd hst h⟩
  · next hst =>
    rw [ok_inj] at h7
    subst h7
    refine ⟨by rw [c1], key rd1 rfl rfl, fun h => absurd h hst, fun _ => by rw [c1]; exact ⟨rfl, rfl⟩⟩

/-! ## Multiplications -/

/-- The state in which `Crossbar::mvm` reaches its read-disturb part. -/
structure MvmDone (E : Env K) (cfg : Cfg K) (x : Xbar K) (m n : Nat) (y : Xbar K) : Prop where
  consec : y.consec = x.consec + 1
  writes : y.writes = x.writes
  mvms : y.mvms = x.mvms + 1
  refX : y.refX = x.refX
  refC : y.refC = x.refC
  rd : y.rd = x.rd
  fixed : y.mapper.core = { x.mapper.core with ia := y.mapper.core.ia }
  pO : y.mapper.core.ia.pO = x.mapper.core.ia.pO
  mO : y.mapper.core.ia.mO = x.mapper.core.ia.mO
  ia : ∀ r k, (y.mapper.core.ia.p.get r k, y.mapper.core.ia.m.get r k) =
    if cfg.c2c = true ∧ r < m ∧ k < n then
      (x.mapper.core.ia.pO.get r k, x.mapper.core.ia.mO.get r k)
    else (x.mapper.core.ia.p.get r k, x.mapper.core.ia.m.get r k)
  same : cfg.c2c = false → y.mapper.core = x.mapper.core
  shape : CoreShape E cfg y.mapper.core

/-- Decomposition of an analog multiplication with read disturb. -/
theorem xMvm_done {r : Vec Int} (hs : Shape E cfg x) (hdo : cfg.digitalOnly = false)
    (h : xMvm E cfg x res vec mat m n l = .ok (x', r)) :
    ∃ y, MvmDone E cfg x m n y ∧ (if cfg.readDisturb then rdStep E cfg y m n else .ok y) = .ok x' := by
  unfold xMvm at h
  dsimp only at h
  rw [hdo, if_neg (by simp), bind_eq_ok] at h
  obtain ⟨mp, h1, h⟩ := h
  rw [bind_eq_ok] at h
  obtain ⟨q, h2, h⟩ := h
  rw [bind_eq_ok] at h
  obtain ⟨mp', h3, h⟩ := h
  rw [bind_eq_ok] at h
  obtain ⟨x2, h4, h⟩ := h
  rw [ok_inj, Prod.mk.injEq] at h
  obtain ⟨rfl, _⟩ := h
  refine ⟨_, ?_, h4⟩
  cases hc : cfg.c2c
  · rw [hc, if_neg (by simp), ok_inj] at h1 h3
    subst h1 h3
    exact ⟨rfl, rfl, rfl, rfl, rfl, rfl, rfl, rfl, rfl, fun r k => by rw [if_neg (by simp [hc])], fun _ => rfl, hs.core⟩
  · rw [hc, if_pos rfl] at h1 h3
    obtain ⟨a0, a1, a2, a3⟩ := addC2C_cont h1 hs.core.ia
    obtain ⟨b1, b2, b3⟩ := removeC2C_cont h3 a0
    refine ⟨rfl, rfl, rfl, rfl, rfl, rfl, ?_, b1.trans a1, b2.trans a2, fun r k => ?_,
      fun h => absurd (hc.symm.trans h) (by simp), ?_⟩
    rotate_left 2
    · have s1 := (sat_addC2C lax_true hs.core (Fits.mk' fun h => absurd trivial h)).of_ok h1
      exact ((sat_removeC2C (F := fun _ => True) (mp := { mp with aux := q.1 }) s1.1
        (Fits.mk' fun h => absurd trivial h)).of_ok h3).1
    · unfold addC2C at h1
      unfold removeC2C at h3
      dsimp only at h1 h3
      rw [bind_eq_ok] at h1 h3
      obtain ⟨_, _, h1⟩ := h1
      obtain ⟨_, _, h3⟩ := h3
      rw [ok_inj] at h1 h3
      subst h1
      rw [← h3]
    · have e1 := a3 r k
      have e2 := b3 r k
      by_cases hr : r < m ∧ k < n
      · rw [if_pos ⟨hc, hr⟩]
        rw [if_pos hr] at e2
        rw [e2, a1, a2]
      · rw [if_neg fun h => hr h.2]
        rw [if_neg hr] at e1 e2
        rw [e2, e1]

theorem xMvm_rd {r : Vec Int} (hs : Shape E cfg x) (hdo : cfg.digitalOnly = false)
    (hrd : cfg.readDisturb = true) (h : xMvm E cfg x res vec mat m n l = .ok (x', r)) :
    ∃ y, MvmDone E cfg x m n y ∧ rdStep E cfg y m n = .ok x' := by
  have := xMvm_done hs hdo h
  rw [hrd] at this
  exact this

/-- Counters that no read-disturb step changes. -/
structure Kept (x x' : Xbar K) : Prop where
  writes : x'.writes = x.writes
  mvms : x'.mvms = x.mvms
  consec : x'.consec = x.consec
  refX : x'.refX = x.refX

/-- The simulation without mitigation. -/
theorem rdStep_off (hs : RdShape cfg rd) (hx : x.rd = some rd) (hst : cfg.strategy = .off)
    (h : rdStep E cfg x m n = .ok x') :
    cfg.updFreq ≠ 0 ∧ Kept x x' ∧ x'.refC = x.refC ∧
    ∃ rd', x'.rd = some rd' ∧ rd' = { rd with oob := rd'.oob } ∧
      (x.consec % cfg.updFreq = 0 →
        Updated E cfg rd (fun _ _ => x.consec) (fun _ _ => x.consec) x.mapper.core x'.mapper.core) ∧
      (x.consec % cfg.updFreq ≠ 0 → x'.mapper.core = x.mapper.core) := by
  unfold rdStep at h
  rw [hst] at h
  dsimp only at h
  split at h
  · cases h
  · next hf =>
    refine ⟨hf, ?_⟩
    split at h
    · next hu =>
      rw [hx] at h
      dsimp only at h
      rw [bind_eq_ok] at h
      obtain ⟨⟨c', rd'⟩, h1, h⟩ := h
      rw [ok_inj] at h
      subst h
      obtain ⟨e1, e2⟩ := rdUpdate_inv (RP := fun _ _ => x.consec) (RM := fun _ _ => x.consec) hs
        (fun _ _ _ h => (ok_inj.1 h).symm) (fun _ _ _ h => (ok_inj.1 h).symm) h1
      exact ⟨⟨rfl, rfl, rfl, rfl⟩, rfl, rd', rfl, e2, fun _ => e1, fun h => absurd hu h⟩
    · next hu =>
      rw [ok_inj] at h
      subst h
      exact ⟨⟨rfl, rfl, rfl, rfl⟩, rfl, rd, hx, rfl, fun h => absurd h hu, fun _ => rfl⟩

/-- Effect of a software refresh. -/
structure Rewritten (E : Env K) (cfg : Cfg K) (x : Xbar K) (rd : Rd K) (x' : Xbar K) (rd' : Rd K) :
    Prop where
  writes : x'.writes = x.writes
  mvms : x'.mvms = x.mvms
  consec : x'.consec = 0
  refX : x'.refX = x.refX + 1
  has : x'.rd = some rd'
  rdFrame : rd' = { rd with cycP := rd'.cycP, cycM := rd'.cycM }
  cycP : ∀ r k, r < cfg.R → k < cfg.N → rd'.cycP.get r k = rd.cycP.get r k +
    if x.mapper.core.gd.p.get r k = 1 then 1 else 0
  cycM : ∀ r k, r < cfg.R → k < cfg.N → rd'.cycM.get r k = rd.cycM.get r k +
    if x.mapper.core.isDiff = true ∧ x.mapper.core.gd.m.get r k = 1 then 1 else 0
  prog : aWrite E cfg x.mapper cfg.M cfg.N = .ok x'.mapper

theorem Rewritten.bin {y : Xbar K} {rd1 : Rd K} (h : Rewritten E cfg y rd1 x' rd')
    (hc : CoreShape E cfg y.mapper.core) (hi : cfg.mode.isInt = false) :
    BinDone E cfg y.mapper.core cfg.M cfg.N x'.mapper.core.ia :=
  ((cont_aWrite (F := fun _ => True) (mp := y.mapper)
    ⟨hc.gd.p, hc.gd.m, hc.ia, fun h => absurd trivial h, fun h => absurd trivial h,
      fun h => absurd trivial h, fun h => absurd trivial h⟩ (fun _ _ => trivial)
    (fun h => absurd trivial h) (fun h => absurd trivial h)).of_ok h.prog).2 (by rw [hc.mode]; exact hi)

theorem softwareRefresh_inv (hs : RdShape cfg rd) (h : softwareRefresh E cfg x rd = .ok x') :
    ∃ rd', Rewritten E cfg x rd x' rd' := by
  unfold softwareRefresh at h
  dsimp only at h
  rw [bind_eq_ok] at h
  obtain ⟨p, h1, h⟩ := h
  rw [bind_eq_ok] at h
  obtain ⟨q, h2, h⟩ := h
  rw [bind_eq_ok] at h
  obtain ⟨rd', h3, h⟩ := h
  rw [bind_eq_ok] at h
  obtain ⟨mp, h4, h⟩ := h
  rw [ok_inj] at h
  subst h
  obtain ⟨c1, c2, c3⟩ := updateCycles_inv hs h3
  have hb : ∀ P : Prop, [Decidable P] → (decide P).toNat = if P then 1 else 0 := fun P _ => by
    by_cases h : P <;> simp [h]
  refine ⟨rd', rfl, rfl, rfl, rfl, rfl, c1, fun r k hr hk => ?_, fun r k hr hk => ?_, h4⟩
  · rw [c2, lrsMat_inv h1 r k hr hk, hb]
    simp only [hr, hk, and_self, if_true]
  · rw [c3]
    split at h2
    · next hd =>
      rw [lrsMat_inv h2 r k hr hk, hb]
      simp only [hr, hk, hd, and_self, true_and, if_true]
    · next hd =>
      rw [ok_inj] at h2
      rw [← h2]
      simp [hd, Mat.const]

/-- The simulation with `SOFTWARE` mitigation. -/
theorem rdStep_software (hs : RdShape cfg rd) (hx : x.rd = some rd) (hst : cfg.strategy = .software)
    (h : rdStep E cfg x m n = .ok x') :
    cfg.updFreq ≠ 0 ∧
    (x.consec % cfg.updFreq ≠ 0 → x' = x) ∧
    (x.consec % cfg.updFreq = 0 → ∃ y rd1, Kept x y ∧ y.refC = x.refC ∧ y.rd = some rd1 ∧
      rd1 = { rd with oob := rd1.oob } ∧ y.mapper.aux = x.mapper.aux ∧
      Updated E cfg rd (fun _ _ => x.consec) (fun _ _ => x.consec) x.mapper.core y.mapper.core ∧
      (rdCheckSoftware E cfg rd x.consec (x.writes + x.refX) = false → x' = y) ∧
      (rdCheckSoftware E cfg rd x.consec (x.writes + x.refX) = true →
        ∃ rd', Rewritten E cfg y rd1 x' rd')) := by
  unfold rdStep at h
  rw [hst] at h
  dsimp only at h
  split at h
  · cases h
  · next hf =>
    refine ⟨hf, ?_⟩
    split at h
    · next hu =>
      refine ⟨fun h => absurd hu h, fun _ => ?_⟩
      rw [hx] at h
      dsimp only at h
      rw [bind_eq_ok] at h
      obtain ⟨⟨c', rd'⟩, h1, h⟩ := h
      obtain ⟨e1, e2⟩ := rdUpdate_inv (RP := fun _ _ => x.consec) (RM := fun _ _ => x.consec) hs
        (fun _ _ _ h => (ok_inj.1 h).symm) (fun _ _ _ h => (ok_inj.1 h).symm) h1
      have hsh : RdShape cfg { rd' with oob := rd'.oob || rdOob E (x.writes + x.refX) } := by
        rw [e2]; exact ⟨hs.cycP, hs.cycM, hs.rdP, hs.rdM⟩
      refine ⟨{ x with
          mapper := { x.mapper with core := c' }
          rd := some { rd' with oob := rd'.oob || rdOob E (x.writes + x.refX) } },
        { rd' with oob := rd'.oob || rdOob E (x.writes + x.refX) }, ⟨rfl, rfl, rfl, rfl⟩, rfl, rfl, ?_, rfl,
        e1, fun hc => ?_, fun hc => ?_⟩
      · rw [e2]
      · have hc' : ∀ o, rdCheckSoftware E cfg { rd' with oob := o } x.consec (x.writes + x.refX) = false := by
          intro o; rw [e2]; exact hc
        dsimp only at h
        rw [hc', if_neg (by simp), ok_inj] at h
        exact h.symm
      · have hc' : ∀ o, rdCheckSoftware E cfg { rd' with oob := o } x.consec (x.writes + x.refX) = true := by
          intro o; rw [e2]; exact hc
        dsimp only at h
        rw [hc', if_pos rfl] at h
        exact softwareRefresh_inv hsh h
    · next hu =>
      rw [ok_inj] at h
      subst h
      exact ⟨fun _ => rfl, fun h => absurd h hu⟩

/-- The simulation with `CELL_BASED` mitigation. -/
theorem rdStep_cell (hs : RdShape cfg rd) (hc : CoreShape E cfg x.mapper.core)
    (hx : x.rd = some rd) (hst : cfg.strategy = .cellBased)
    (h : rdStep E cfg x m n = .ok x') :
    cfg.updFreq ≠ 0 ∧ Kept x x' ∧
    ∃ rd1 rd', x'.rd = some rd' ∧ updateReads cfg rd m n = .ok rd1 ∧
      (x.consec % cfg.updFreq ≠ 0 → rd' = rd1 ∧ x'.mapper = x.mapper) ∧
      (x.consec % cfg.updFreq = 0 → ∃ c1 rd2, rd2 = { rd1 with oob := rd2.oob } ∧
        Updated E cfg rd1 rd1.rdP.get rd1.rdM.get x.mapper.core c1 ∧
        CellsRefreshed E cfg c1 rd2 x'.mapper.core rd') := by
  unfold rdStep at h
  rw [hst] at h
  dsimp only at h
  rw [hx] at h
  dsimp only at h
  rw [bind_eq_ok] at h
  obtain ⟨rd1, h1, h⟩ := h
  have hs1 : RdShape cfg rd1 :=
    (sat_updateReads (F := fun _ => True) hs (Fits.mk' fun h => absurd trivial h)).of_ok h1
  split at h
  · cases h
  · next hf =>
    refine ⟨hf, ?_⟩
    split at h
    · next hu =>
      rw [bind_eq_ok] at h
      obtain ⟨⟨c', rd2⟩, h2, h⟩ := h
      rw [bind_eq_ok] at h
      obtain ⟨q, h3, h⟩ := h
      rw [ok_inj] at h
      subst h
      obtain ⟨e1, e2⟩ := rdUpdate_inv (RP := rd1.rdP.get) (RM := rd1.rdM.get) hs1
        (fun _ _ _ h => (Mat.rd_eq_ok.1 h).2.symm) (fun _ _ _ h => (Mat.rd_eq_ok.1 h).2.symm) h2
      have hia : IaShape cfg c'.ia := ((sat_rdUpdate lax_true hc hs1 (fun i j _ _ => Sat.any fun _ => trivial)
        fun i j _ _ => Sat.any fun _ => trivial).of_ok h2).1.ia
      exact ⟨⟨rfl, rfl, rfl, rfl⟩, rd1, q.2.1, rfl, h1, fun h => absurd hu h, fun _ =>
        ⟨c', rd2, e2, e1, rdCellRefresh_inv (mp := { x.mapper with core := c' }) hia h3⟩⟩
    · next hu =>
      rw [ok_inj] at h
      subst h
      exact ⟨⟨rfl, rfl, rfl, rfl⟩, rd1, rd1, rfl, h1, fun _ => ⟨rfl, rfl⟩, fun h => absurd h hu⟩

end

end Acs
