import Verif.Lemmas.Frame

/-! # Calls with values outside the alphabet of a binary or ternary mapping -/

set_option linter.unusedSectionVars false

namespace Acs

section
variable {σ : Type} {F : Fault → Prop}

/-- Loop rule with an invariant that depends on the counter. -/
theorem Sat.loopI {n : Nat} {f : Nat → σ → C σ} {s : σ} {I : Nat → σ → Prop} (h0 : I 0 s)
    (hs : ∀ i, i < n → ∀ s, I i s → Sat F (f i s) (I (i + 1))) : Sat F (Acs.loop n f s) (I n) := by
  induction n with
  | zero => exact h0
  | succ n ih =>
    exact Sat.bind (ih fun i hi => hs i (by omega)) fun s h => hs n (by omega) s h

theorem Sat.addI' {a b : Int} (h : |a + b| ≤ 2147483647) :
    Sat F (Acs.addI a b) fun c => c = a + b := by
  rw [abs_le] at h
  unfold Acs.addI Acs.i32
  rw [if_pos ⟨by omega, by omega⟩]
  rfl

theorem Sat.negI' {a : Int} (h : |a| ≤ 2147483647) : Sat F (Acs.negI a) fun c => c = -a := by
  rw [abs_le] at h
  unfold Acs.negI Acs.i32
  rw [if_pos ⟨by omega, by omega⟩]
  rfl

end

section
variable {K : Type} [Field K] [LinearOrder K] [IsStrictOrderedRing K] [FloorRing K]
variable {F : Fault → Prop} {E : Env K} {cfg : Cfg K} {c : Core K} {a : Aux K} {gd : Gd}
variable {mat vec res v w : Vec Int} {m n : Nat} {l : String} {x x' : Xbar K}

/-- Binary writes stop with `abort()` or store a valid matrix. -/
theorem reject_dWriteDiffBnn (hg : GdShape cfg gd) (hm : m ≤ cfg.M) (hR : m ≤ cfg.R) (hn : n ≤ cfg.N)
    (hbuf : m * n ≤ mat.size)
    (hv : ∀ i j, i < m → j < n → |mat.get (n * i + j)| + n ≤ 2147483647) :
    Sat (· = .aborted) (dWriteDiffBnn mat m n gd) fun _ =>
      ∀ i j, i < m → j < n → mat.get (n * i + j) = 1 ∨ mat.get (n * i + j) = -1 := by
  unfold dWriteDiffBnn
  refine (Sat.loopI (I := fun k g => GdShape cfg g ∧ ∀ i j, i < k → j < n →
    mat.get (n * i + j) = 1 ∨ mat.get (n * i + j) = -1) ⟨hg, fun _ _ h => by omega⟩
    fun i hi g hI => ?_).mono fun _ h => h.2
  refine Sat.bind (P := fun r : Gd × Int => GdShape cfg r.1 ∧ ∀ j, j < n →
    mat.get (n * i + j) = 1 ∨ mat.get (n * i + j) = -1) ?_ fun r hr => ?_
  · refine (Sat.loopI (I := fun k (r : Gd × Int) => GdShape cfg r.1 ∧ |r.2| ≤ k ∧ ∀ j, j < k →
      mat.get (n * i + j) = 1 ∨ mat.get (n * i + j) = -1) ⟨hI.1, by simp, fun _ h => by omega⟩
      fun j hj st hst => ?_).mono fun _ h => ⟨h.1, h.2.2⟩
    refine Sat.bind (Sat.vrd fun _ => by have := idx_lt hi hj; omega) fun w hw => ?_
    have hb : |st.2 + w| ≤ 2147483647 := by
      have h1 := hv i j hi hj
      rw [← hw] at h1
      have h2 := abs_add_le st.2 w
      have h3 := hst.2.1
      omega
    refine Sat.bind (Sat.addI' hb) fun s hs => ?_
    have hcell : ¬((· = .aborted) Fault.oob) → i < cfg.R ∧ j < cfg.N := fun _ => by omega
    have hstep : ∀ k, w = 1 ∨ w = -1 → k < j + 1 →
        mat.get (n * i + k) = 1 ∨ mat.get (n * i + k) = -1 := fun k hw' hk => by
      rcases Nat.lt_succ_iff_lt_or_eq.1 hk with hk | rfl
      · exact hst.2.2 k hk
      · rw [← hw]; exact hw'
    refine Sat.ite (fun h1 => ?_) fun h1 => Sat.ite (fun h2 => ?_) fun h2 => rfl
    · refine Sat.bind (Sat.mwrIs hst.1.p hcell) fun p hp => Sat.bind (Sat.mwrIs hst.1.m hcell)
        fun q hq => ⟨⟨hp, hq, hst.1.sumW⟩, ?_, fun k hk => hstep k (Or.inl h1) hk⟩
      subst h1 hs
      have h2 := abs_add_le st.2 1
      have h3 := hst.2.1
      simp only [abs_one] at h2
      push_cast
      omega
    · refine Sat.bind (Sat.mwrIs hst.1.p hcell) fun p hp => ?_
      refine Sat.bind (Sat.negI' (by subst h2; decide)) fun _ _ => ?_
      refine Sat.bind (Sat.mwrIs hst.1.m hcell)
        fun q hq => ⟨⟨hp, hq, hst.1.sumW⟩, ?_, fun k hk => hstep k (Or.inr h2) hk⟩
      subst h2 hs
      have h2 := abs_add_le st.2 (-1)
      have h3 := hst.2.1
      simp only [abs_neg, abs_one] at h2
      push_cast
      omega
  · refine Sat.bind (Sat.vwr fun _ => by rw [hr.1.sumW]; omega) fun sw hsw => ?_
    refine ⟨⟨hr.1.p, hr.1.m, hsw.trans hr.1.sumW⟩, fun i' j hi' hj => ?_⟩
    rcases Nat.lt_succ_iff_lt_or_eq.1 hi' with h | rfl
    · exact hI.2 i' j h hj
    · exact hr.2 j hj

/-- Ternary writes stop with `abort()` or store a valid matrix. -/
theorem reject_dWriteDiffTnn (hg : GdShape cfg gd) (hm : m ≤ cfg.M) (hR : m ≤ cfg.R) (hn : n ≤ cfg.N)
    (hbuf : m * n ≤ mat.size)
    (hv : ∀ i j, i < m → j < n → |mat.get (n * i + j)| + n ≤ 2147483647) :
    Sat (· = .aborted) (dWriteDiffTnn mat m n gd) fun _ =>
      ∀ i j, i < m → j < n → mat.get (n * i + j) = 1 ∨ mat.get (n * i + j) = -1 ∨
        mat.get (n * i + j) = 0 := by
  unfold dWriteDiffTnn
  refine (Sat.loopI (I := fun k g => GdShape cfg g ∧ ∀ i j, i < k → j < n →
    mat.get (n * i + j) = 1 ∨ mat.get (n * i + j) = -1 ∨ mat.get (n * i + j) = 0)
    ⟨hg, fun _ _ h => by omega⟩ fun i hi g hI => ?_).mono fun _ h => h.2
  refine Sat.bind (P := fun r : Gd × Int => GdShape cfg r.1 ∧ ∀ j, j < n →
    mat.get (n * i + j) = 1 ∨ mat.get (n * i + j) = -1 ∨ mat.get (n * i + j) = 0) ?_ fun r hr => ?_
  · refine (Sat.loopI (I := fun k (r : Gd × Int) => GdShape cfg r.1 ∧ |r.2| ≤ k ∧ ∀ j, j < k →
      mat.get (n * i + j) = 1 ∨ mat.get (n * i + j) = -1 ∨ mat.get (n * i + j) = 0)
      ⟨hI.1, by simp, fun _ h => by omega⟩
      fun j hj st hst => ?_).mono fun _ h => ⟨h.1, h.2.2⟩
    refine Sat.bind (Sat.vrd fun _ => by have := idx_lt hi hj; omega) fun w hw => ?_
    have hb : |st.2 + w| ≤ 2147483647 := by
      have h1 := hv i j hi hj
      rw [← hw] at h1
      have h2 := abs_add_le st.2 w
      have h3 := hst.2.1
      omega
    refine Sat.bind (Sat.addI' hb) fun s hs => ?_
    have hcell : ¬((· = .aborted) Fault.oob) → i < cfg.R ∧ j < cfg.N := fun _ => by omega
    have hstep : ∀ k, w = 1 ∨ w = -1 ∨ w = 0 → k < j + 1 →
        mat.get (n * i + k) = 1 ∨ mat.get (n * i + k) = -1 ∨ mat.get (n * i + k) = 0 :=
      fun k hw' hk => by
        rcases Nat.lt_succ_iff_lt_or_eq.1 hk with hk | rfl
        · exact hst.2.2 k hk
        · rw [← hw]; exact hw'
    refine Sat.ite (fun h1 => ?_) fun h1 => Sat.ite (fun h2 => ?_) fun h2 =>
      Sat.ite (fun h3 => ?_) fun h3 => rfl
    · refine Sat.bind (Sat.mwrIs hst.1.p hcell) fun p hp => Sat.bind (Sat.mwrIs hst.1.m hcell)
        fun q hq => ⟨⟨hp, hq, hst.1.sumW⟩, ?_, fun k hk => hstep k (Or.inl h1) hk⟩
      subst h1 hs
      have h2 := abs_add_le st.2 1
      have h3 := hst.2.1
      simp only [abs_one] at h2
      push_cast
      omega
    · refine Sat.bind (Sat.mwrIs hst.1.p hcell) fun p hp => ?_
      refine Sat.bind (Sat.negI' (by subst h2; decide)) fun _ _ => ?_
      refine Sat.bind (Sat.mwrIs hst.1.m hcell)
        fun q hq => ⟨⟨hp, hq, hst.1.sumW⟩, ?_, fun k hk => hstep k (Or.inr (Or.inl h2)) hk⟩
      subst h2 hs
      have h2 := abs_add_le st.2 (-1)
      have h3 := hst.2.1
      simp only [abs_neg, abs_one] at h2
      push_cast
      omega
    · refine Sat.bind (Sat.mwrIs hst.1.p hcell) fun p hp => Sat.bind (Sat.mwrIs hst.1.m hcell)
        fun q hq => ⟨⟨hp, hq, hst.1.sumW⟩, ?_, fun k hk => hstep k (Or.inr (Or.inr h3)) hk⟩
      subst h3 hs
      have h3 := hst.2.1
      rw [add_zero]
      push_cast
      omega
  · refine Sat.bind (Sat.vwr fun _ => by rw [hr.1.sumW]; omega) fun sw hsw => ?_
    refine ⟨⟨hr.1.p, hr.1.m, hsw.trans hr.1.sumW⟩, fun i' j hi' hj => ?_⟩
    rcases Nat.lt_succ_iff_lt_or_eq.1 hi' with h | rfl
    · exact hI.2 i' j h hj
    · exact hr.2 j hj

/-- Binary input encoders stop with `abort()` or accept a valid vector. -/
theorem reject_encPM (hn : n ≤ vec.size) (hv : n ≤ v.size) (hw : n ≤ w.size) :
    Sat (· = .aborted) (encPM n vec v w) fun _ => ∀ j, j < n → vec.get j = 1 ∨ vec.get j = -1 := by
  unfold encPM
  refine (Sat.loopI (I := fun k (r : Vec Int × Vec Int) => (n ≤ r.1.size ∧ n ≤ r.2.size) ∧
    ∀ j, j < k → vec.get j = 1 ∨ vec.get j = -1) ⟨⟨hv, hw⟩, fun _ h => by omega⟩
    fun j hj st hst => ?_).mono fun _ h => h.2
  refine Sat.bind (Sat.vrd fun _ => by omega) fun x hx => ?_
  have hstep : ∀ k, x = 1 ∨ x = -1 → k < j + 1 → vec.get k = 1 ∨ vec.get k = -1 :=
    fun k hw' hk => by
      rcases Nat.lt_succ_iff_lt_or_eq.1 hk with hk | rfl
      · exact hst.2 k hk
      · rw [← hx]; exact hw'
  refine Sat.ite (fun h1 => ?_) fun h1 => Sat.ite (fun h2 => ?_) fun h2 => rfl
  · exact Sat.bind (Sat.vwr fun _ => by omega) fun p hp => Sat.bind (Sat.vwr fun _ => by omega)
      fun q hq => ⟨⟨by rw [hp]; exact hst.1.1, by rw [hq]; exact hst.1.2⟩,
        fun k hk => hstep k (Or.inl h1) hk⟩
  · exact Sat.bind (Sat.vwr fun _ => by omega) fun p hp => Sat.bind (Sat.vwr fun _ => by omega)
      fun q hq => ⟨⟨by rw [hq]; exact hst.1.1, by rw [hp]; exact hst.1.2⟩,
        fun k hk => hstep k (Or.inr h2) hk⟩

theorem reject_encPMSum (hn : n ≤ vec.size) (hv : n ≤ v.size) (hw : n ≤ w.size)
    (hb : ∀ j, j < n → |vec.get j| + n ≤ 2147483647) :
    Sat (· = .aborted) (encPMSum n vec v w) fun _ =>
      ∀ j, j < n → vec.get j = 1 ∨ vec.get j = -1 := by
  unfold encPMSum
  refine (Sat.loopI (I := fun k (r : (Vec Int × Vec Int) × Int) =>
    (n ≤ r.1.1.size ∧ n ≤ r.1.2.size) ∧ |r.2| ≤ k ∧
    ∀ j, j < k → vec.get j = 1 ∨ vec.get j = -1) ⟨⟨hv, hw⟩, by simp, fun _ h => by omega⟩
    fun j hj st hst => ?_).mono fun _ h => h.2.2
  refine Sat.bind (Sat.vrd fun _ => by omega) fun x hx => ?_
  have hstep : ∀ k, x = 1 ∨ x = -1 → k < j + 1 → vec.get k = 1 ∨ vec.get k = -1 :=
    fun k hw' hk => by
      rcases Nat.lt_succ_iff_lt_or_eq.1 hk with hk | rfl
      · exact hst.2.2 k hk
      · rw [← hx]; exact hw'
  have hab := abs_add_le st.2 x
  have hk := hst.2.1
  refine Sat.bind (Sat.addI' ?_) fun s hs => ?_
  · have h1 := hb j hj
    rw [← hx] at h1
    omega
  refine Sat.ite (fun h1 => ?_) fun h1 => Sat.ite (fun h2 => ?_) fun h2 => rfl
  · refine Sat.bind (Sat.vwr fun _ => by omega) fun p hp => Sat.bind (Sat.vwr fun _ => by omega)
      fun q hq => ⟨⟨by rw [hp]; exact hst.1.1, by rw [hq]; exact hst.1.2⟩, ?_,
        fun k hk => hstep k (Or.inl h1) hk⟩
    rw [hs]
    have : |x| = 1 := by rw [h1]; rfl
    push_cast
    omega
  · refine Sat.bind (Sat.vwr fun _ => by omega) fun p hp => Sat.bind (Sat.vwr fun _ => by omega)
      fun q hq => ⟨⟨by rw [hq]; exact hst.1.1, by rw [hp]; exact hst.1.2⟩, ?_,
        fun k hk => hstep k (Or.inr h2) hk⟩
    rw [hs]
    have : |x| = 1 := by rw [h2]; rfl
    push_cast
    omega

theorem reject_encTern (hn : n ≤ vec.size) (hv : n ≤ v.size) (hw : n ≤ w.size) :
    Sat (· = .aborted) (encTern n vec v w) fun _ =>
      ∀ j, j < n → vec.get j = 1 ∨ vec.get j = -1 ∨ vec.get j = 0 := by
  unfold encTern
  refine (Sat.loopI (I := fun k (r : Vec Int × Vec Int) => (n ≤ r.1.size ∧ n ≤ r.2.size) ∧
    ∀ j, j < k → vec.get j = 1 ∨ vec.get j = -1 ∨ vec.get j = 0) ⟨⟨hv, hw⟩, fun _ h => by omega⟩
    fun j hj st hst => ?_).mono fun _ h => h.2
  refine Sat.bind (Sat.vrd fun _ => by omega) fun x hx => ?_
  have hstep : ∀ k, x = 1 ∨ x = -1 ∨ x = 0 → k < j + 1 →
      vec.get k = 1 ∨ vec.get k = -1 ∨ vec.get k = 0 :=
    fun k hw' hk => by
      rcases Nat.lt_succ_iff_lt_or_eq.1 hk with hk | rfl
      · exact hst.2 k hk
      · rw [← hx]; exact hw'
  refine Sat.ite (fun h1 => ?_) fun h1 => Sat.ite (fun h2 => ?_) fun h2 =>
    Sat.ite (fun h3 => ?_) fun h3 => rfl
  · exact Sat.bind (Sat.vwr fun _ => by omega) fun p hp => Sat.bind (Sat.vwr fun _ => by omega)
      fun q hq => ⟨⟨by rw [hp]; exact hst.1.1, by rw [hq]; exact hst.1.2⟩,
        fun k hk => hstep k (Or.inl h1) hk⟩
  · exact Sat.bind (Sat.vwr fun _ => by omega) fun p hp => Sat.bind (Sat.vwr fun _ => by omega)
      fun q hq => ⟨⟨by rw [hq]; exact hst.1.1, by rw [hp]; exact hst.1.2⟩,
        fun k hk => hstep k (Or.inr (Or.inl h2)) hk⟩
  · exact Sat.bind (Sat.vwr fun _ => by omega) fun p hp => Sat.bind (Sat.vwr fun _ => by omega)
      fun q hq => ⟨⟨by rw [hq]; exact hst.1.1, by rw [hp]; exact hst.1.2⟩,
        fun k hk => hstep k (Or.inr (Or.inr h3)) hk⟩

/-- The 64 bit input sum of values that fit 32 bits does not overflow. -/
theorem inpSum_total (hn : n ≤ vec.size) (hn' : n ≤ 2147483647)
    (hb : ∀ j, j < n → |vec.get j| ≤ 2147483648) : ∃ s, inpSum n vec = .ok s := by
  have : Sat (fun _ => False) (inpSum n vec) fun _ => True := by
    unfold inpSum
    refine (Sat.loopI (I := fun k (s : Int) => |s| ≤ k * 2147483648) (by simp)
      fun j hj s hs => ?_).true
    refine Sat.bind (Sat.vrd fun _ => by omega) fun x hx => ?_
    have h1 := hb j hj
    rw [← hx] at h1
    have h2 := abs_add_le s x
    have h3 : |s + x| ≤ (j + 1) * 2147483648 := by linarith
    have h4 : ((j + 1 : Nat) : Int) * 2147483648 ≤ 2147483647 * 2147483648 :=
      mul_le_mul_of_nonneg_right (by exact_mod_cast (by omega : j + 1 ≤ 2147483647)) (by norm_num)
    push_cast at h4
    have h5 := abs_le.1 (h3.trans h4)
    unfold addL i64
    rw [if_pos ⟨by linarith [h5.1], by linarith [h5.2]⟩]
    show |s + x| ≤ _
    push_cast
    exact h3
  rcases this.elim with ⟨r, h, _⟩ | ⟨e, _, h⟩
  · exact ⟨r, h⟩
  · exact h.elim

/-- A computation that can only stop with `abort()` and cannot succeed aborts. -/
theorem Sat.aborts {α : Type} {x : C α} {Q : α → Prop} (h : Sat (· = .aborted) x Q)
    (hQ : ∀ a, ¬Q a) : x = .error .aborted := by
  rcases h.elim with ⟨a, _, h⟩ | ⟨e, h, rfl⟩
  · exact absurd h (hQ a)
  · exact h

theorem err_bind {α β : Type} {x : C α} {e : Fault} {f : α → C β} (h : x = .error e) :
    (x >>= f) = .error e := by rw [h]; rfl

theorem Sat.addNoise' (E : Env K) (cfg : Cfg K) (r : Nat) (y : K) (k : Int) :
    Sat (fun e => e = .aborted ∨ e = .exited) (Acs.addNoise E cfg r y k) fun _ => True := by
  unfold Acs.addNoise
  exact Sat.ite (fun _ => Sat.ite (fun _ => trivial) fun _ => trivial) fun _ =>
    Sat.ite (fun _ => Sat.ite (fun _ => trivial) fun _ => trivial) fun _ => Or.inr rfl

/-- Variability before a multiplication only fails with `exit`. -/
theorem reject_addC2C {mp : Mapper K} (hc : CoreShape E cfg mp.core) (hm : m ≤ cfg.R)
    (hn : n ≤ cfg.N) : Sat (fun e => e = .aborted ∨ e = .exited) (addC2C E cfg mp m n) fun mp' =>
      mp'.aux = { mp.aux with rng := mp'.aux.rng } ∧ mp'.core.mode = mp.core.mode := by
  unfold addC2C
  refine Sat.bind (P := fun r => IaShape cfg r.1) ?_ fun r hr => ⟨rfl, rfl⟩
  refine Sat.loop2 (I := fun r : Ia K × Nat => IaShape cfg r.1) hc.ia fun i j hi hj st hia => ?_
  have hb : ¬((fun e => e = .aborted ∨ e = .exited) Fault.oob) → i < cfg.R ∧ j < cfg.N :=
    fun hn => by omega
  exact Sat.bind (Sat.mrdIs hia.pO hb) fun _ _ => Sat.bind (Sat.mrdIs hc.gd.p hb) fun _ _ =>
    Sat.bind (Sat.addNoise' _ _ _ _ _) fun _ _ => Sat.bind (Sat.mwrIs hia.p hb) fun p hp =>
    Sat.bind (Sat.mrdIs hia.mO hb) fun _ _ => Sat.bind (Sat.mrdIs hc.gd.m hb) fun _ _ =>
    Sat.bind (Sat.addNoise' _ _ _ _ _) fun _ _ => Sat.bind (Sat.mwrIs hia.m hb) fun q hq =>
    ⟨hp, hq, hia.pO, hia.mO⟩

end

end Acs
