import Verif.SpecOob
import Verif.Model.Getters
import Verif.Lemmas.Wear
import Verif.Lemmas.RdExact
import Mathlib.Analysis.SpecialFunctions.Pow.Real

/-! # The out-of-bounds flag of the read disturb model -/

set_option linter.unusedSectionVars false

namespace Acs

open Spec

section
variable {K : Type} [Field K] [LinearOrder K] [IsStrictOrderedRing K] [FloorRing K]
variable {E : Env K} {cfg : Cfg K} {x x' : Xbar K} {rd rd' : Rd K} {t : List (Step K)}
variable {mat vec res out : Vec Int} {m n : Nat} {l : String}

theorem rdOob_iff (c : Nat) : rdOob E c = true ↔ 1 ≤ wearFl E c := by
  unfold rdOob rdExp wearFl Env.lit
  rw [decide_eq_true_iff]

/-- One half of an update sets the flag exactly for the worn cells in LRS. -/
theorem rdUpdMat_oob {reads : Nat → Nat → C Nat} {cyc : Mat Nat} {g : Mat Int} {A : Mat K} {o : Bool}
    {b : Mat K × Bool} (hc : cyc.Is cfg.R cfg.N) (h : rdUpdMat E cfg rd reads cyc g A o = .ok b) :
    b.2 = true ↔ o = true ∨ ∃ r k, r < cfg.R ∧ k < cfg.N ∧ g.get r k = 1 ∧ rdOob E (cyc.get r k) = true := by
  unfold rdUpdMat at h
  rw [hc.1, hc.2] at h
  refine loop_ind (fun i (s : Mat K × Bool) => s.2 = true ↔ o = true ∨
    ∃ r k, r < i ∧ k < cfg.N ∧ g.get r k = 1 ∧ rdOob E (cyc.get r k) = true) (by simp)
    (fun i _ s t hs h => ?_) h
  have key := loop_ind (fun j (u : Mat K × Bool) => u.2 = true ↔ s.2 = true ∨
    ∃ k, k < j ∧ g.get i k = 1 ∧ rdOob E (cyc.get i k) = true) (by simp) (fun j _ u v hu h => ?_) h
  · rw [key, hs]
    constructor
    · rintro ((h | ⟨r, k, h1, h2, h3, h4⟩) | ⟨k, h2, h3, h4⟩)
      · exact .inl h
      · exact .inr ⟨r, k, by omega, h2, h3, h4⟩
      · exact .inr ⟨i, k, by omega, h2, h3, h4⟩
    · rintro (h | ⟨r, k, h1, h2, h3, h4⟩)
      · exact .inl (.inl h)
      · rcases Nat.lt_succ_iff_lt_or_eq.1 h1 with h1 | rfl
        · exact .inl (.inr ⟨r, k, h1, h2, h3, h4⟩)
        · exact .inr ⟨k, h2, h3, h4⟩
  · rw [bind_eq_ok] at h
    obtain ⟨a, h1, h⟩ := h
    rw [Mat.rd_eq_ok] at h1
    have up : (∃ k, k < j + 1 ∧ g.get i k = 1 ∧ rdOob E (cyc.get i k) = true) ↔
        (∃ k, k < j ∧ g.get i k = 1 ∧ rdOob E (cyc.get i k) = true) ∨
        (g.get i j = 1 ∧ rdOob E (cyc.get i j) = true) := by
      constructor
      · rintro ⟨k, h1, h2⟩
        rcases Nat.lt_succ_iff_lt_or_eq.1 h1 with h1 | rfl
        · exact .inl ⟨k, h1, h2⟩
        · exact .inr h2
      · rintro (⟨k, h1, h2⟩ | h2)
        · exact ⟨k, by omega, h2⟩
        · exact ⟨j, by omega, h2⟩
    rw [up, ← or_assoc, ← hu]
    split at h
    · next ha =>
      rw [bind_eq_ok] at h
      obtain ⟨q, _, h⟩ := h
      rw [bind_eq_ok] at h
      obtain ⟨c, h3, h⟩ := h
      rw [Mat.rd_eq_ok] at h3
      rw [bind_eq_ok] at h
      obtain ⟨f, _, h⟩ := h
      rw [bind_eq_ok] at h
      obtain ⟨B, _, h⟩ := h
      rw [ok_inj] at h
      rw [← h, h1.2, h3.2]
      simp [ha]
    · next ha =>
      rw [ok_inj] at h
      rw [← h, h1.2]
      simp [ha]

/-- Cells of a state the model is asked about. -/
def WornCell (E : Env K) (cfg : Cfg K) (c : Core K) (rd : Rd K) : Prop :=
  (∃ r k, r < cfg.R ∧ k < cfg.N ∧ c.gd.p.get r k = 1 ∧ rdOob E (rd.cycP.get r k) = true) ∨
    (c.isDiff = true ∧ ∃ r k, r < cfg.R ∧ k < cfg.N ∧ c.gd.m.get r k = 1 ∧ rdOob E (rd.cycM.get r k) = true)

theorem rdUpdate_oob {c c' : Core K} {rp rm : Nat → Nat → C Nat} (hs : RdShape cfg rd)
    (h : rdUpdate E cfg c rd rp rm = .ok (c', rd')) :
    rd'.oob = true ↔ rd.oob = true ∨ WornCell E cfg c rd := by
  unfold rdUpdate at h
  rw [bind_eq_ok] at h
  obtain ⟨p, h1, h⟩ := h
  have e1 := rdUpdMat_oob hs.cycP h1
  unfold WornCell
  split at h
  · next hd =>
    rw [bind_eq_ok] at h
    obtain ⟨q, h2, h⟩ := h
    have e2 := rdUpdMat_oob hs.cycM h2
    rw [ok_inj, Prod.mk.injEq] at h
    obtain ⟨_, rfl⟩ := h
    show q.2 = true ↔ _
    rw [e2, e1, or_assoc]
    simp only [hd, true_and]
  · next hd =>
    rw [ok_inj, Prod.mk.injEq] at h
    obtain ⟨_, rfl⟩ := h
    show p.2 = true ↔ _
    rw [e1]
    simp only [hd, false_and, or_false, Bool.false_eq_true]

/-- What a multiplication does to the flag. -/
theorem mvm_oob (hs : Shape E cfg x) (hrd : cfg.readDisturb = true) (hdo : cfg.digitalOnly = false)
    (hx : x.rd = some rd) (h : xMvm E cfg x res vec mat m n l = .ok (x', out)) :
    ∃ rd', x'.rd = some rd' ∧ (rd'.oob = true ↔ rd.oob = true ∨
      ∃ c, Asks cfg ⟨.mvm res vec mat m n l, x, x'⟩ c ∧ 1 ≤ wearFl E c) := by
  obtain ⟨y, hy, h⟩ := xMvm_rd hs hdo hrd h
  obtain ⟨rd0, hx0, hsr⟩ := hs.rd hrd
  rw [hx, Option.some.injEq] at hx0
  subst hx0
  have hy' : y.rd = some rd := hy.rd.trans hx
  have hgd : y.mapper.core.gd = x.mapper.core.gd := by rw [hy.fixed]
  have hdf : y.mapper.core.isDiff = x.mapper.core.isDiff := by rw [hy.fixed]
  have hdiff : x.mapper.core.isDiff = cfg.mode.isDiff := by
    exact hs.core.isDiff
  -- the cells
  have cells : ∀ rd1 : Rd K, rd1.cycP = rd.cycP → rd1.cycM = rd.cycM →
      (WornCell E cfg y.mapper.core rd1 ↔ ∃ c, 1 ≤ wearFl E c ∧
        ((∃ r k, r < cfg.R ∧ k < cfg.N ∧ x.mapper.core.gd.p.get r k = 1 ∧ rd.cycP.get r k = c) ∨
        (cfg.mode.isDiff = true ∧
          ∃ r k, r < cfg.R ∧ k < cfg.N ∧ x.mapper.core.gd.m.get r k = 1 ∧ rd.cycM.get r k = c))) := by
    intro rd1 e1 e2
    unfold WornCell
    rw [e1, e2, hgd, hdf, hdiff]
    constructor
    · rintro (⟨r, k, h1, h2, h3, h4⟩ | ⟨hd, r, k, h1, h2, h3, h4⟩)
      · exact ⟨_, (rdOob_iff _).1 h4, .inl ⟨r, k, h1, h2, h3, rfl⟩⟩
      · exact ⟨_, (rdOob_iff _).1 h4, .inr ⟨hd, r, k, h1, h2, h3, rfl⟩⟩
    · rintro ⟨c, hc, ⟨r, k, h1, h2, h3, h4⟩ | ⟨hd, r, k, h1, h2, h3, h4⟩⟩
      · exact .inl ⟨r, k, h1, h2, h3, (rdOob_iff _).2 (h4 ▸ hc)⟩
      · exact .inr ⟨hd, r, k, h1, h2, h3, (rdOob_iff _).2 (h4 ▸ hc)⟩
  -- not due
  have idle : ¬y.consec % cfg.updFreq = 0 →
      ¬∃ c, Asks cfg ⟨.mvm res vec mat m n l, x, x'⟩ c ∧ 1 ≤ wearFl E c := by
    rintro hu ⟨c, ⟨_, hd, _⟩, _⟩
    exact hu (by rw [hy.consec]; exact hd)
  -- due, no software mitigation
  have plain : cfg.strategy ≠ .software → y.consec % cfg.updFreq = 0 → ∀ rd1 : Rd K, rd1.cycP = rd.cycP →
      rd1.cycM = rd.cycM → (WornCell E cfg y.mapper.core rd1 ↔
      ∃ c, Asks cfg ⟨.mvm res vec mat m n l, x, x'⟩ c ∧ 1 ≤ wearFl E c) := by
    intro hn hu rd1 e1 e2
    rw [cells rd1 e1 e2]
    constructor
    · rintro ⟨c, hc, ha⟩
      exact ⟨c, ⟨trivial, by rw [hy.consec] at hu; exact hu, rd, hx, ha.imp id .inl⟩, hc⟩
    · rintro ⟨c, ⟨_, _, rd2, h2, ha⟩, hc⟩
      have h2 : x.rd = some rd2 := h2
      rw [hx, Option.some.injEq] at h2
      subst h2
      rcases ha with ha | ha | ha
      · exact ⟨c, hc, .inl ha⟩
      · exact ⟨c, hc, .inr ha⟩
      · exact absurd ha.1 hn
  unfold rdStep at h
  cases hst : cfg.strategy
  · rw [hst] at h
    dsimp only at h
    split at h
    · cases h
    · split at h
      · next hu =>
        rw [hy'] at h
        dsimp only at h
        rw [bind_eq_ok] at h
        obtain ⟨⟨c', rd'⟩, h1, h⟩ := h
        rw [ok_inj] at h
        refine ⟨rd', by rw [← h], ?_⟩
        rw [rdUpdate_oob hsr h1, plain (by rw [hst]; simp) hu rd rfl rfl]
      · next hu =>
        rw [ok_inj] at h
        refine ⟨rd, by rw [← h]; exact hy', ?_⟩
        simp only [idle hu, or_false]
  · rw [hst] at h
    dsimp only at h
    split at h
    · cases h
    · split at h
      · next hu =>
        rw [hy'] at h
        dsimp only at h
        rw [bind_eq_ok] at h
        obtain ⟨⟨c', rd'⟩, h1, h⟩ := h
        have e2 := (rdUpdate_inv (RP := fun _ _ => y.consec) (RM := fun _ _ => y.consec) hsr
          (fun _ _ _ h => (ok_inj.1 h).symm) (fun _ _ _ h => (ok_inj.1 h).symm) h1).2
        have hsh : RdShape cfg { rd' with oob := rd'.oob || rdOob E (y.writes + y.refX) } := by
          rw [e2]; exact ⟨hsr.cycP, hsr.cycM, hsr.rdP, hsr.rdM⟩
        have flag : (rd'.oob || rdOob E (y.writes + y.refX)) = true ↔ rd.oob = true ∨
            ∃ c, Asks cfg ⟨.mvm res vec mat m n l, x, x'⟩ c ∧ 1 ≤ wearFl E c := by
          rw [Bool.or_eq_true, rdUpdate_oob hsr h1, cells rd rfl rfl, rdOob_iff, hy.writes, hy.refX,
            or_assoc]
          refine or_congr_right ?_
          constructor
          · rintro (⟨c, hc, ha⟩ | hc)
            · exact ⟨c, ⟨trivial, by rw [hy.consec] at hu; exact hu, rd, hx, ha.imp id .inl⟩, hc⟩
            · exact ⟨_, ⟨trivial, by rw [hy.consec] at hu; exact hu, rd, hx, .inr (.inr ⟨hst, rfl⟩)⟩, hc⟩
          · rintro ⟨c, ⟨_, _, rd2, h2, ha⟩, hc⟩
            have h2 : x.rd = some rd2 := h2
            rw [hx, Option.some.injEq] at h2
            subst h2
            rcases ha with ha | ha | ha
            · exact .inl ⟨c, hc, .inl ha⟩
            · exact .inl ⟨c, hc, .inr ha⟩
            · exact .inr (ha.2 ▸ hc)
        dsimp only at h
        split at h
        · obtain ⟨rd3, hr⟩ := softwareRefresh_inv hsh h
          refine ⟨rd3, hr.has, ?_⟩
          rw [hr.rdFrame]
          exact flag
        · rw [ok_inj] at h
          exact ⟨_, by rw [← h], flag⟩
      · next hu =>
        rw [ok_inj] at h
        refine ⟨rd, by rw [← h]; exact hy', ?_⟩
        simp only [idle hu, or_false]
  · rw [hst] at h
    dsimp only at h
    rw [hy'] at h
    dsimp only at h
    rw [bind_eq_ok] at h
    obtain ⟨rd1, h1, h⟩ := h
    have hs1 : RdShape cfg rd1 :=
      (sat_updateReads (F := fun _ => True) hsr (Fits.mk' fun h => absurd trivial h)).of_ok h1
    have e1 := (updateReads_inv h1).1
    split at h
    · cases h
    · split at h
      · next hu =>
        rw [bind_eq_ok] at h
        obtain ⟨⟨c', rd2⟩, h2, h⟩ := h
        rw [bind_eq_ok] at h
        obtain ⟨q, h3, h⟩ := h
        rw [ok_inj] at h
        have hia : IaShape cfg c'.ia := ((sat_rdUpdate lax_true hy.shape hs1
          (fun i j _ _ => Sat.any fun _ => trivial) fun i j _ _ => Sat.any fun _ => trivial).of_ok h2).1.ia
        have hq := (rdCellRefresh_inv (mp := { y.mapper with core := c' }) hia h3).rdFrame
        refine ⟨q.2.1, by rw [← h], ?_⟩
        rw [hq]
        show rd2.oob = true ↔ _
        rw [rdUpdate_oob hs1 h2, plain (by rw [hst]; simp) hu rd1 (by rw [e1]) (by rw [e1]), e1]
      · next hu =>
        rw [ok_inj] at h
        refine ⟨rd1, by rw [← h], ?_⟩
        rw [e1]
        simp only [idle hu, or_false]

/-- The flag after a trace. -/
theorem traced_oob (hrd : cfg.readDisturb = true) (hdo : cfg.digitalOnly = false) (ht : Traced E cfg t x)
    (hx : x.rd = some rd) :
    rd.oob = true ↔ ∃ s ∈ t, ∃ c, Asks cfg s c ∧ 1 ≤ wearFl E c := by
  induction ht generalizing rd with
  | @init rng hists x h =>
    unfold mkXbar at h
    rw [bind_eq_ok] at h
    obtain ⟨mp, _, h⟩ := h
    rw [bind_eq_ok] at h
    obtain ⟨o, h1, h⟩ := h
    rw [ok_inj] at h
    subst h
    have hx : o = some rd := hx
    subst hx
    unfold optRd at h1
    rw [if_pos hrd, bind_eq_ok] at h1
    obtain ⟨r, h2, h1⟩ := h1
    rw [ok_inj, Option.some.injEq] at h1
    subst h1
    unfold mkRd at h2
    rw [bind_eq_ok] at h2
    obtain ⟨p, _, h2⟩ := h2
    rw [bind_eq_ok] at h2
    obtain ⟨e, _, h2⟩ := h2
    rw [ok_inj] at h2
    subst h2
    simp
  | @write t x x' mat m n ht h' ih =>
    obtain ⟨rd0, hx0, _⟩ := (runs_shape ht.runs).rd hrd
    obtain ⟨rd', h1, h2, _⟩ := xWrite_rd (runs_shape ht.runs) hrd hx0 h'
    rw [hx, Option.some.injEq] at h1
    subst h1
    rw [h2]
    show rd0.oob = true ↔ _
    rw [ih hx0]
    constructor
    · rintro ⟨s, hs, hc⟩
      exact ⟨s, List.mem_cons_of_mem _ hs, hc⟩
    · rintro ⟨s, hs, c, hc⟩
      rcases List.mem_cons.1 hs with rfl | hs
      · exact absurd hc.1.1 id
      · exact ⟨s, hs, c, hc⟩
  | @mvm t x x' res vec mat r m n l ht h' ih =>
    obtain ⟨rd0, hx0, _⟩ := (runs_shape ht.runs).rd hrd
    obtain ⟨rd', h1, h2⟩ := mvm_oob (runs_shape ht.runs) hrd hdo hx0 h'
    rw [hx, Option.some.injEq] at h1
    subst h1
    rw [h2, ih hx0]
    constructor
    · rintro (⟨s, hs, hc⟩ | hc)
      · exact ⟨s, List.mem_cons_of_mem _ hs, hc⟩
      · exact ⟨_, List.mem_cons_self, hc⟩
    · rintro ⟨s, hs, hc⟩
      rcases List.mem_cons.1 hs with rfl | hs
      · exact .inr hc
      · exact .inl ⟨s, hs, hc⟩

/-- Every call of a trace started in the state the calls before it led to. -/
theorem traced_split (ht : Traced E cfg t x) {s : Step K} (hs : s ∈ t) :
    ∃ t1 t2, t = t1 ++ s :: t2 ∧ Traced E cfg t2 s.pre := by
  induction ht with
  | init _ => exact absurd hs (List.not_mem_nil)
  | write ht h' ih =>
    rcases List.mem_cons.1 hs with rfl | hs
    · exact ⟨[], _, rfl, ht⟩
    · obtain ⟨t1, t2, e, h⟩ := ih hs
      exact ⟨_ :: t1, t2, by rw [e]; rfl, h⟩
  | mvm ht h' ih =>
    rcases List.mem_cons.1 hs with rfl | hs
    · exact ⟨[], _, rfl, ht⟩
    · obtain ⟨t1, t2, e, h⟩ := ih hs
      exact ⟨_ :: t1, t2, by rw [e]; rfl, h⟩

/-- Every suffix of a trace is one. -/
theorem traced_suffix {t1 t2 : List (Step K)} {s : Step K} (ht : Traced E cfg (t1 ++ s :: t2) x) :
    Traced E cfg t2 s.pre := by
  induction t1 generalizing x with
  | nil => cases ht <;> assumption
  | cons a t1 ih => cases ht <;> exact ih ‹_›

theorem wearFl_mono (hE : RdArith E) {a b : Nat} (h : a ≤ b) : wearFl E a ≤ wearFl E b :=
  rdExp_mono hE h

theorem wearFl_exact (hE : ExactArith E) (c : Nat) : wearFl E c = wear E c := by
  unfold wearFl wear
  simp only [hE.f32, hE.f64]

end

/-! ## The real functions -/

/-- Where the wear reaches one. -/
theorem real_wear (c : Nat) : 1 ≤ 3 / 1000 * (c : ℝ) ^ (41 / 100 : ℝ) ↔ 1423518 ≤ c := by
  have hc : (0 : ℝ) ≤ c := Nat.cast_nonneg c
  have hp : (0 : ℝ) ≤ 3 / 1000 * (c : ℝ) ^ (41 / 100 : ℝ) := by positivity
  rw [← pow_le_pow_iff_left₀ (n := 100) zero_le_one hp (by norm_num), mul_pow, one_pow,
    ← Real.rpow_natCast ((c : ℝ) ^ (41 / 100 : ℝ)) 100, ← Real.rpow_mul hc]
  have e : (41 / 100 : ℝ) * ((100 : ℕ) : ℝ) = ((41 : ℕ) : ℝ) := by norm_num
  rw [e, Real.rpow_natCast, div_pow, div_mul_eq_mul_div, one_le_div (by positivity)]
  have n1 : (1000 : ℝ) ^ 100 ≤ 3 ^ 100 * (c : ℝ) ^ 41 ↔ 1000 ^ 100 ≤ 3 ^ 100 * c ^ 41 := by
    exact_mod_cast Iff.rfl
  rw [n1]
  constructor
  · intro h
    by_contra hl
    have h1 : c ^ 41 ≤ 1423517 ^ 41 := Nat.pow_le_pow_left (by omega) 41
    have h2 : 3 ^ 100 * c ^ 41 ≤ 3 ^ 100 * 1423517 ^ 41 := Nat.mul_le_mul_left _ h1
    have h3 : 3 ^ 100 * 1423517 ^ 41 < 1000 ^ 100 := by norm_num
    omega
  · intro h
    have h1 : 1423518 ^ 41 ≤ c ^ 41 := Nat.pow_le_pow_left h 41
    have h2 : 3 ^ 100 * 1423518 ^ 41 ≤ 3 ^ 100 * c ^ 41 := Nat.mul_le_mul_left _ h1
    have h3 : 1000 ^ 100 ≤ 3 ^ 100 * 1423518 ^ 41 := by norm_num
    omega

theorem Spec.Close.le {f : ℝ → ℝ} (hf : Close f) {a : ℝ} (h1 : 1 / 1000 ≤ a) (h2 : a ≤ 10 ^ 7) :
    f a ≤ a * (1 + 1 / 10 ^ 5) := by
  have := (abs_le.1 (hf a h1 h2)).2
  linarith

theorem Spec.Close.ge {f : ℝ → ℝ} (hf : Close f) {a : ℝ} (h1 : 1 / 1000 ≤ a) (h2 : a ≤ 10 ^ 7) :
    a * (1 - 1 / 10 ^ 5) ≤ f a := by
  have := (abs_le.1 (hf a h1 h2)).1
  linarith

theorem rpow_le_of_pow {a b : ℝ} {n d : Nat} {e : ℝ} (ha : 0 ≤ a) (hb : 0 ≤ b) (hd : d ≠ 0)
    (he : e = n / d) (h : a ^ n ≤ b ^ d) : a ^ e ≤ b := by
  have hd' : (d : ℝ) ≠ 0 := Nat.cast_ne_zero.2 hd
  rw [← pow_le_pow_iff_left₀ (n := d) (Real.rpow_nonneg ha _) hb hd, ← Real.rpow_natCast (a ^ e) d,
    ← Real.rpow_mul ha, he, div_mul_cancel₀ _ hd', Real.rpow_natCast]
  exact h

theorem le_rpow_of_pow {a b : ℝ} {n d : Nat} {e : ℝ} (ha : 0 ≤ a) (hb : 0 ≤ b) (hd : d ≠ 0)
    (he : e = n / d) (h : b ^ d ≤ a ^ n) : b ≤ a ^ e := by
  have hd' : (d : ℝ) ≠ 0 := Nat.cast_ne_zero.2 hd
  rw [← pow_le_pow_iff_left₀ (n := d) hb (Real.rpow_nonneg ha _) hd, ← Real.rpow_natCast (a ^ e) d,
    ← Real.rpow_mul ha, he, div_mul_cancel₀ _ hd', Real.rpow_natCast]
  exact h

section
variable {f32 f64 : ℝ → ℝ}

theorem lit_close (h32 : Close f32) (h64 : Close f64) {a : ℝ} (h1 : 1 / 500 ≤ a) (h2 : a ≤ 1) :
    a * (1 - 1 / 10 ^ 5) * (1 - 1 / 10 ^ 5) ≤ f32 (f64 a) ∧
      f32 (f64 a) ≤ a * (1 + 1 / 10 ^ 5) * (1 + 1 / 10 ^ 5) := by
  have u := h64.le (a := a) (by linarith) (by linarith)
  have l := h64.ge (a := a) (by linarith) (by linarith)
  have r1 : 1 / 1000 ≤ f64 a := by norm_num at l ⊢; linarith
  have r2 : f64 a ≤ 10 ^ 7 := by norm_num at u ⊢; linarith
  have u' := h32.le r1 r2
  have l' := h32.ge r1 r2
  exact ⟨le_trans (mul_le_mul_of_nonneg_right l (by norm_num)) l',
    u'.trans (mul_le_mul_of_nonneg_right u (by norm_num))⟩

theorem wear_below (h32 : Close f32) (h64 : Close f64) (m64 : Monotone f64) :
    f64 (f32 (f64 (3 / 1000)) * f64 ((f64 (1400000 : ℝ)) ^ (f32 (f64 (41 / 100))))) < 1 := by
  have ha := (lit_close h32 h64 (a := 3 / 1000) (by norm_num) (by norm_num))
  have he := (lit_close h32 h64 (a := 41 / 100) (by norm_num) (by norm_num))
  have hn := h64.le (a := 1400000) (by norm_num) (by norm_num)
  have hn' := h64.ge (a := 1400000) (by norm_num) (by norm_num)
  have hpow : (f64 (1400000 : ℝ)) ^ (f32 (f64 (41 / 100))) ≤ 332 := by
    refine (Real.rpow_le_rpow_of_exponent_le (by norm_num at hn' ⊢; linarith)
      (he.2.trans (by norm_num : _ ≤ (4101 / 10000 : ℝ)))).trans ?_
    refine (Real.rpow_le_rpow (by norm_num at hn' ⊢; linarith)
      (hn.trans (by norm_num : _ ≤ (1400014 : ℝ))) (by norm_num)).trans ?_
    refine rpow_le_of_pow (n := 4101) (d := 10000) (by norm_num) (by norm_num) (by norm_num) (by norm_num) ?_
    exact_mod_cast (by decide +kernel : 1400014 ^ 4101 ≤ 332 ^ 10000)
  have h0 : (0 : ℝ) ≤ (f64 (1400000 : ℝ)) ^ (f32 (f64 (41 / 100))) :=
    Real.rpow_nonneg (by norm_num at hn' ⊢; linarith) _
  have hv : f64 ((f64 (1400000 : ℝ)) ^ (f32 (f64 (41 / 100)))) ≤ 332 * (1 + 1 / 10 ^ 5) :=
    (m64 hpow).trans (h64.le (by norm_num) (by norm_num))
  have hprod : f32 (f64 (3 / 1000)) * f64 ((f64 (1400000 : ℝ)) ^ (f32 (f64 (41 / 100)))) ≤ 997 / 1000 := by
    have ha0 : 0 ≤ f32 (f64 (3 / 1000)) := le_trans (by norm_num) ha.1
    refine (mul_le_mul_of_nonneg_left hv ha0).trans ?_
    refine (mul_le_mul_of_nonneg_right ha.2 (by norm_num)).trans ?_
    norm_num
  refine ((m64 hprod).trans (h64.le (by norm_num) (by norm_num))).trans_lt ?_
  norm_num

theorem wear_above (h32 : Close f32) (h64 : Close f64) (m64 : Monotone f64) :
    1 ≤ f64 (f32 (f64 (3 / 1000)) * f64 ((f64 (1500000 : ℝ)) ^ (f32 (f64 (41 / 100))))) := by
  have ha := (lit_close h32 h64 (a := 3 / 1000) (by norm_num) (by norm_num))
  have he := (lit_close h32 h64 (a := 41 / 100) (by norm_num) (by norm_num))
  have hn' := h64.ge (a := 1500000) (by norm_num) (by norm_num)
  have hpow : 340 ≤ (f64 (1500000 : ℝ)) ^ (f32 (f64 (41 / 100))) := by
    refine le_trans ?_ (Real.rpow_le_rpow_of_exponent_le (by norm_num at hn' ⊢; linarith)
      ((by norm_num : (4099 / 10000 : ℝ) ≤ _).trans he.1))
    refine le_trans ?_ (Real.rpow_le_rpow (by norm_num)
      ((by norm_num : (1499985 : ℝ) ≤ _).trans hn') (by norm_num))
    refine le_rpow_of_pow (n := 4099) (d := 10000) (by norm_num) (by norm_num) (by norm_num) (by norm_num) ?_
    exact_mod_cast (by decide +kernel : 340 ^ 10000 ≤ 1499985 ^ 4099)
  have hv : 340 * (1 - 1 / 10 ^ 5) ≤ f64 ((f64 (1500000 : ℝ)) ^ (f32 (f64 (41 / 100)))) :=
    (h64.ge (by norm_num) (by norm_num)).trans (m64 hpow)
  have hprod : 101 / 100 ≤ f32 (f64 (3 / 1000)) * f64 ((f64 (1500000 : ℝ)) ^ (f32 (f64 (41 / 100)))) := by
    have ha0 : 0 ≤ f32 (f64 (3 / 1000)) := le_trans (by norm_num) ha.1
    refine le_trans ?_ (mul_le_mul_of_nonneg_left hv ha0)
    refine le_trans ?_ (mul_le_mul_of_nonneg_right ha.1 (by norm_num))
    norm_num
  refine le_trans ?_ ((h64.ge (by norm_num) (by norm_num)).trans (m64 hprod))
  norm_num

end

end Acs
