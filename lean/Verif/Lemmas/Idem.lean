import Verif.Lemmas.ApplyInv

/-! # `apply_config` a second time -/

namespace Acs

open Spec

variable {K : Type} [Field K] [LinearOrder K] [IsStrictOrderedRing K] [FloorRing K]
variable {E : Env K} {j j' : Json K} {c c' e : Cfg K}

theorem exitIf_no {p : Prop} [Decidable p] (h : ¬p) : exitIf p = .ok () := if_neg h

/-! ## The stages -/

omit [Field K] [LinearOrder K] [IsStrictOrderedRing K] [FloorRing K] in
theorem cfg_dims {m n : Nat} (h1 : e.M = m) (h2 : e.N = n) : { e with M := m, N := n } = e := by subst h1 h2; rfl

theorem dims_again (h : applyDims j c = .ok c') (h1 : e.M = c'.M) (h2 : e.N = c'.N) : applyDims j e = .ok e := by
  obtain ⟨m, n, k1, k2, k3, k4, rfl⟩ := applyDims_inv h
  unfold applyDims
  rw [k1, ok_bind, k2, ok_bind, exitIf_no (by omega), ok_bind]
  exact congrArg Except.ok (cfg_dims h1 h2)

theorem mode_again (h : applyMode j c = .ok c') (h1 : e.mode = c'.mode) : applyMode j e = .ok e := by
  obtain ⟨s, md, k1, k2, rfl⟩ := applyMode_inv h
  unfold applyMode
  rw [k1, ok_bind]
  simp only [k2]
  change e.mode = md at h1
  subst h1
  rfl

theorem states_again (h : applyStates E j c = .ok c') (h1 : e.hrs = c'.hrs) (h2 : e.lrs = c'.lrs) (h3 : e.adcType = c'.adcType) :
    applyStates E j e = .ok e := by
  obtain ⟨x, y, s, a, k1, k2, k3, k4, k5, k6, rfl⟩ := applyStates_inv h
  unfold applyStates
  rw [k1, ok_bind, k2, ok_bind, k3, ok_bind]
  simp only [k4]
  rw [exitIf_no (not_or.2 ⟨not_le.2 k5, not_le.2 k6⟩), ok_bind]
  change e.hrs = x at h1
  change e.lrs = y at h2
  change e.adcType = a at h3
  subst h1 h2 h3
  rfl

theorem calib_again (h : applyCalib E j c = .ok c') (h1 : e.calibMode = c'.calibMode)
    (h2 : c'.calibMode = .calib → e.calibDict = c'.calibDict) : applyCalib E j e = .ok e := by
  obtain ⟨s, k1, ⟨rfl, rfl⟩ | ⟨rfl, d, k2, k3, rfl⟩⟩ := applyCalib_inv h
  · unfold applyCalib
    rw [k1, ok_bind, if_pos rfl]
    change e.calibMode = .max at h1
    refine congrArg Except.ok ?_
    rw [← h1]
  · unfold applyCalib
    rw [k1, ok_bind, if_neg (by decide), if_pos rfl, k2, ok_bind, exitIf_no (by simpa using k3), ok_bind]
    change e.calibMode = .calib at h1
    have h2 : e.calibDict = d := h2 rfl
    refine congrArg Except.ok ?_
    rw [← h1, ← h2]

theorem profile_again (h : applyProfile j c = .ok c') (h1 : e.adcProfile = c'.adcProfile)
    (h2 : c'.adcProfile = true → e.binSize = c'.binSize) : applyProfile j e = .ok e := by
  obtain ⟨p, k1, ⟨rfl, rfl⟩ | ⟨rfl, b, k2, rfl⟩⟩ := applyProfile_inv h
  · unfold applyProfile
    rw [k1, ok_bind]
    change e.adcProfile = false at h1
    refine congrArg Except.ok ?_
    rw [← h1]
  · unfold applyProfile
    rw [k1, ok_bind]
    simp only [if_true]
    rw [k2, ok_bind]
    change e.adcProfile = true at h1
    have h2 : e.binSize = b := h2 rfl
    refine congrArg Except.ok ?_
    rw [← h1, ← h2]

omit [Field K] [LinearOrder K] [IsStrictOrderedRing K] [FloorRing K] in
theorem cfg_resolution {r : Int} (h : e.resolution = r) : { e with resolution := r } = e := by subst h; rfl

theorem adc_again (h : applyAdc E j c = .ok c') (ht : c'.adcType = c.adcType) (h0 : e.adcType = c'.adcType) (h1 : e.resolution = c'.resolution)
    (h2 : e.calibMode = c'.calibMode) (h3 : e.calibDict = c'.calibDict) (h4 : e.adcProfile = c'.adcProfile)
    (h5 : e.binSize = c'.binSize) (hr : c'.adcType ≠ .inf → c'.resolution ≠ -1) : applyAdc E j e = .ok e := by
  rcases applyAdc_inv h with ⟨k1, rfl⟩ | ⟨k1, _, r, c1, k2, k3, k4⟩
  · unfold applyAdc
    rw [if_pos (h0.trans k1)]
  · have q : c'.resolution = r ∧ c'.calibMode = c1.calibMode ∧ c'.calibDict = c1.calibDict := by
      obtain ⟨s, _, ⟨_, rfl⟩ | ⟨_, d, _, _, rfl⟩⟩ := applyCalib_inv k3 <;>
      obtain ⟨p, _, ⟨_, rfl⟩ | ⟨_, b, _, rfl⟩⟩ := applyProfile_inv k4 <;> exact ⟨rfl, rfl, rfl⟩
    have hi : e.adcType ≠ .inf := by rw [h0, ht]; exact k1
    unfold applyAdc
    rw [if_neg hi, exitIf_no (by rw [h1]; exact hr (ht ▸ k1)), ok_bind, k2, ok_bind, cfg_resolution (h1.trans q.1),
      calib_again k3 (h2.trans q.2.1) (fun _ => h3.trans q.2.2), ok_bind, profile_again k4 h4 fun _ => h5]

theorem noise_again (h : applyNoise E j c = .ok c') (h0 : e.mode = c.mode) (h1 : e.hrsNoise = c'.hrsNoise)
    (h2 : e.lrsNoise = c'.lrsNoise) (h3 : e.d2d = c'.d2d) (h4 : e.c2c = c'.c2c) : applyNoise E j e = .ok e := by
  obtain ⟨x, y, a, b, k1, k2, k3, k4, k5, rfl⟩ := applyNoise_inv h
  unfold applyNoise
  rw [k1, ok_bind, k2, ok_bind, k3, ok_bind, k4, ok_bind, exitIf_no (by rw [h0]; exact k5), ok_bind]
  change e.hrsNoise = x at h1
  change e.lrsNoise = y at h2
  change e.d2d = a at h3
  change e.c2c = b at h4
  refine congrArg Except.ok ?_
  rw [← h1, ← h2, ← h3, ← h4]

/-- The switch for the wires becomes what the document says. -/
theorem vRead_again (h : applyVRead E j c = .ok c') (h1 : e.readDisturb = c'.readDisturb) (h2 : e.vRead = c'.vRead) :
    applyVRead E j e = .ok { e with parasitics := c'.parasitics } := by
  obtain ⟨rd, par, k1, k2, ⟨k3, v, k4, k5, rfl⟩ | ⟨k3, rfl⟩⟩ := applyVRead_inv h
  · unfold applyVRead
    rw [k1, ok_bind, k2, ok_bind, if_pos k3, k4, ok_bind, exitIf_no (not_le.2 k5), ok_bind]
    change e.readDisturb = rd at h1
    change e.vRead = v at h2
    refine congrArg Except.ok ?_
    rw [← h1, ← h2]
  · unfold applyVRead
    rw [k1, ok_bind, k2, ok_bind, if_neg (by rw [k3]; decide)]
    change e.readDisturb = rd at h1
    refine congrArg Except.ok ?_
    rw [← h1]

theorem rd_again (h : applyRd E j c = .ok c') (h0 : e.mode = c.mode) (hd : e.readDisturb = c.readDisturb)
    (h1 : e.tRead = c'.tRead) (h2 : e.updFreq = c'.updFreq) (h3 : e.strategy = c'.strategy) (h4 : e.fp = c'.fp)
    (h5 : e.tol = c'.tol) : applyRd E j e = .ok e := by
  rcases applyRd_inv h with ⟨k1, rfl⟩ | ⟨k1, k2, t, f, s, st, k3, k4, k5, k6, k7⟩
  · unfold applyRd
    rw [if_neg (by rw [hd, k1]; decide)]
  · have q : c'.tRead = t ∧ c'.updFreq = f ∧ c'.strategy = st := by
      obtain ⟨_, rfl⟩ | ⟨_, f, _, _, rfl⟩ | ⟨_, t, _, _, _, rfl⟩ := applyMitigation_inv k7 <;> exact ⟨rfl, rfl, rfl⟩
    have he : { e with tRead := t, updFreq := f, strategy := st } = e := by
      rw [← q.1, ← q.2.1, ← q.2.2, ← h1, ← h2, ← h3]
    unfold applyRd
    rw [if_pos (hd.trans k1), exitIf_no (by rw [h0, k2]; decide), ok_bind, k3, ok_bind, k4, ok_bind, k5, ok_bind]
    simp only [k6]
    rw [he]
    have h3' : e.strategy = st := h3.trans q.2.2
    unfold applyMitigation
    rcases applyMitigation_inv k7 with ⟨m1, rfl⟩ | ⟨m1, x, m2, m3, rfl⟩ | ⟨m1, x, m2, m3, m4, rfl⟩
    · change st = .off at m1
      rw [h3', m1]
    · change st = .software at m1
      change e.fp = x at h4
      rw [h3', m1]
      dsimp only
      rw [m2, ok_bind, exitIf_no (not_lt.2 m3), ok_bind]
      refine congrArg Except.ok ?_
      rw [← h4, ← m1, ← h3']
    · change st = .cellBased at m1
      change e.tol = x at h5
      rw [h3', m1]
      dsimp only
      rw [m2, ok_bind, exitIf_no (not_or.2 ⟨not_lt.2 m3, not_lt.2 m4⟩), ok_bind]
      refine congrArg Except.ok ?_
      rw [← h5, ← m1, ← h3']

theorem par_again (h : applyPar E j c = .ok c') (h1 : e.wRes = c'.wRes) (h2 : e.parasitics = c'.parasitics) :
    applyPar E j { e with parasitics := c.parasitics } = .ok e := by
  rcases applyPar_inv h with ⟨k1, rfl⟩ | ⟨k1, w, k2, rfl⟩
  · unfold applyPar
    rw [k1]
    simp only [Bool.false_eq_true, if_false]
    refine congrArg Except.ok ?_
    rw [← k1, ← h2]
  · unfold applyPar
    rw [k1]
    simp only [if_true]
    rw [k2, ok_bind]
    change e.wRes = w at h1
    change e.parasitics = decide (w ≠ 0) at h2
    refine congrArg Except.ok ?_
    rw [← h2, ← h1]

theorem bits_again (h : applyBits j c = .ok c') (h0 : e.mode = c.mode) (h1 : e.wBit = c'.wBit) (h2 : e.iBit = c'.iBit)
    (h3 : e.split = c'.split) : applyBits j e = .ok e := by
  rcases applyBits_inv h with ⟨k1, w, i, s, k2, k3, k4, k5, k6, rfl⟩ | ⟨k1, k2, k3, rfl⟩ | ⟨k1, k2, rfl⟩
  · unfold applyBits
    rw [if_pos (by rw [h0]; exact k1), k2, ok_bind, k3, ok_bind, k4, ok_bind, exitIf_no (by omega), ok_bind]
    change e.wBit = w at h1
    change e.iBit = i at h2
    change e.split = s at h3
    refine congrArg Except.ok ?_
    rw [← h1, ← h2, ← h3]
  · unfold applyBits
    have hi : ¬e.mode.isInt = true := by
      rw [h0]
      rcases k1 with k1 | k1 <;> rw [k1] <;> decide
    rw [if_neg hi, if_pos (by rw [h0]; exact k1), k2, ok_bind, k3, ok_bind, exitIf_no (by decide), ok_bind,
      exitIf_no (by decide), ok_bind]
    change e.wBit = 2 at h1
    change e.split = [1, 1] at h3
    refine congrArg Except.ok ?_
    rw [← h1, ← h3]
  · unfold applyBits
    rw [if_neg (by rw [h0, k1]; decide), if_neg (by rw [h0]; exact k2)]
    change e.split = [0] at h3
    refine congrArg Except.ok ?_
    rw [← h3]

/-! ## All stages -/

theorem analog_again (h : applyAnalog E j c = .ok c') (hr : c'.adcType ≠ .inf → c'.resolution ≠ -1)
    (he : e = { c' with M := e.M, N := e.N, digitalOnly := e.digitalOnly, wBit := e.wBit, iBit := e.iBit, split := e.split, verbose := e.verbose }) :
    applyAnalog E j e = .ok e := by
  obtain ⟨a⟩ := applyAnalog_inv h
  have f1 := applyStates_frame a.states
  have f2 := applyAdc_frame a.adc
  have f3 := applyNoise_frame a.noise
  have f4 := applyVRead_frame a.vRead
  have f5 := applyRd_frame a.rd
  have f6 := applyPar_frame a.par
  have m1 : a.c1.mode = c.mode := via Cfg.mode f1 rfl
  have m2 : a.c2.mode = a.c1.mode := via Cfg.mode f2 rfl
  have m3 : a.c3.mode = a.c2.mode := via Cfg.mode f3 rfl
  have m4 : a.c4.mode = a.c3.mode := via Cfg.mode f4 rfl
  have m5 : a.c5.mode = a.c4.mode := via Cfg.mode f5 rfl
  have m6 : c'.mode = a.c5.mode := via Cfg.mode f6 rfl
  have m : e.mode = c'.mode := via Cfg.mode he rfl
  have t2 : a.c2.adcType = a.c1.adcType := via Cfg.adcType f2 rfl
  have t : c'.adcType = a.c2.adcType := via Cfg.adcType f6 (via Cfg.adcType f5 (via Cfg.adcType f4 (via Cfg.adcType f3 rfl)))
  have back : ∀ {α : Type} (p : Cfg K → α), (∀ x y : Cfg K, p { x with hrsNoise := y.hrsNoise, lrsNoise := y.lrsNoise, d2d := y.d2d, c2c := y.c2c } = p x) →
      (∀ x y : Cfg K, p { x with readDisturb := y.readDisturb, parasitics := y.parasitics, vRead := y.vRead } = p x) →
      (∀ x y : Cfg K, p { x with tRead := y.tRead, updFreq := y.updFreq, strategy := y.strategy, fp := y.fp, tol := y.tol } = p x) →
      (∀ x y : Cfg K, p { x with wRes := y.wRes, parasitics := y.parasitics } = p x) → p c' = p a.c2 :=
    fun p q3 q4 q5 q6 => via p f6 ((q6 _ _).trans (via p f5 ((q5 _ _).trans (via p f4 ((q4 _ _).trans (via p f3 (q3 _ _)))))))
  have hd : c'.readDisturb = a.c4.readDisturb := via Cfg.readDisturb f6 (via Cfg.readDisturb f5 rfl)
  have hp : a.c5.parasitics = a.c4.parasitics := via Cfg.parasitics f5 rfl
  have v : ∀ {α : Type} (p : Cfg K → α) {b : α}, p { c' with M := e.M, N := e.N, digitalOnly := e.digitalOnly, wBit := e.wBit, iBit := e.iBit, split := e.split, verbose := e.verbose } = b → p e = b :=
    fun p _ hb => via p he hb
  unfold applyAnalog
  rw [states_again a.states (v Cfg.hrs ((back Cfg.hrs (fun _ _ => rfl) (fun _ _ => rfl) (fun _ _ => rfl) (fun _ _ => rfl)).trans (via Cfg.hrs f2 rfl)))
      (v Cfg.lrs ((back Cfg.lrs (fun _ _ => rfl) (fun _ _ => rfl) (fun _ _ => rfl) (fun _ _ => rfl)).trans (via Cfg.lrs f2 rfl)))
      (v Cfg.adcType (t.trans t2)), ok_bind,
    adc_again a.adc t2 (v Cfg.adcType t)
      (v Cfg.resolution (back Cfg.resolution (fun _ _ => rfl) (fun _ _ => rfl) (fun _ _ => rfl) (fun _ _ => rfl)))
      (v Cfg.calibMode (back Cfg.calibMode (fun _ _ => rfl) (fun _ _ => rfl) (fun _ _ => rfl) (fun _ _ => rfl)))
      (v Cfg.calibDict (back Cfg.calibDict (fun _ _ => rfl) (fun _ _ => rfl) (fun _ _ => rfl) (fun _ _ => rfl)))
      (v Cfg.adcProfile (back Cfg.adcProfile (fun _ _ => rfl) (fun _ _ => rfl) (fun _ _ => rfl) (fun _ _ => rfl)))
      (v Cfg.binSize (back Cfg.binSize (fun _ _ => rfl) (fun _ _ => rfl) (fun _ _ => rfl) (fun _ _ => rfl)))
      (fun hi => by
        rw [← back Cfg.resolution (fun _ _ => rfl) (fun _ _ => rfl) (fun _ _ => rfl) (fun _ _ => rfl)]
        exact hr (t.trans_ne hi)), ok_bind,
    exitIf_no (by
      rw [v Cfg.adcType t, m, m6, m5, m4, m3, a.allowed]
      decide), ok_bind,
    noise_again a.noise (by rw [m, m6, m5, m4, m3])
      (v Cfg.hrsNoise (via Cfg.hrsNoise f6 (via Cfg.hrsNoise f5 (via Cfg.hrsNoise f4 rfl))))
      (v Cfg.lrsNoise (via Cfg.lrsNoise f6 (via Cfg.lrsNoise f5 (via Cfg.lrsNoise f4 rfl))))
      (v Cfg.d2d (via Cfg.d2d f6 (via Cfg.d2d f5 (via Cfg.d2d f4 rfl))))
      (v Cfg.c2c (via Cfg.c2c f6 (via Cfg.c2c f5 (via Cfg.c2c f4 rfl)))), ok_bind,
    vRead_again a.vRead (v Cfg.readDisturb hd) (v Cfg.vRead (via Cfg.vRead f6 (via Cfg.vRead f5 rfl))), ok_bind,
    rd_again (e := { e with parasitics := a.c4.parasitics }) a.rd (show e.mode = _ by rw [m, m6, m5]) (show e.readDisturb = _ from v Cfg.readDisturb hd)
      (show e.tRead = _ from v Cfg.tRead (via Cfg.tRead f6 rfl)) (show e.updFreq = _ from v Cfg.updFreq (via Cfg.updFreq f6 rfl))
      (show e.strategy = _ from v Cfg.strategy (via Cfg.strategy f6 rfl)) (show e.fp = _ from v Cfg.fp (via Cfg.fp f6 rfl))
      (show e.tol = _ from v Cfg.tol (via Cfg.tol f6 rfl)), ok_bind, ← hp]
  exact par_again a.par (v Cfg.wRes rfl) (v Cfg.parasitics rfl)

omit [Field K] [LinearOrder K] [IsStrictOrderedRing K] [FloorRing K] in
theorem cfg_shape {c3 c4 : Cfg K} {b : Bool} (h : c4 = { c3 with wBit := c4.wBit, iBit := c4.iBit, split := c4.split })
    (o : c' = { c4 with verbose := b }) :
    c' = { c3 with M := c'.M, N := c'.N, digitalOnly := c'.digitalOnly, wBit := c'.wBit, iBit := c'.iBit, split := c'.split, verbose := c'.verbose } := by
  subst o
  cases c4
  cases c3
  simp only [Cfg.mk.injEq] at h ⊢
  simp [h]

/-- Applying the same document once more changes nothing. -/
theorem apply_idem (h : applyConfig E j c = .ok c') (hr : c'.digitalOnly = false → c'.adcType ≠ .inf → c'.resolution ≠ -1) :
    applyConfig E j c' = .ok c' := by
  obtain ⟨s⟩ := applyConfig_inv h
  have fb := applyBits_frame s.bits
  obtain ⟨m, n, _, _, _, _, d1⟩ := applyDims_inv s.dims
  obtain ⟨_, md, _, _, d2⟩ := applyMode_inv s.mode
  have e3 : s.c3 = { s.c2 with digitalOnly := s.dig } ∧ s.dig = true ∨ s.dig = false ∧ applyAnalog E j { s.c2 with digitalOnly := s.dig } = .ok s.c3 := by
    have := s.analog
    cases hd : s.dig with
    | true =>
      rw [hd] at this
      exact .inl ⟨(ok_inj.1 this).symm, rfl⟩
    | false =>
      rw [hd] at this
      exact .inr ⟨rfl, this⟩
  have f3 : s.c3.M = s.c1.M ∧ s.c3.N = s.c1.N ∧ s.c3.mode = s.c2.mode ∧ s.c3.digitalOnly = s.dig := by
    have q : s.c2.M = s.c1.M ∧ s.c2.N = s.c1.N := by rw [d2]; exact ⟨rfl, rfl⟩
    rcases e3 with ⟨e3, _⟩ | ⟨_, e3⟩
    · rw [e3]
      exact ⟨q.1, q.2, rfl, rfl⟩
    · obtain ⟨a⟩ := applyAnalog_inv e3
      have g : ∀ {α : Type} (p : Cfg K → α), (∀ x y : Cfg K, p { x with hrs := y.hrs, lrs := y.lrs, adcType := y.adcType } = p x) →
          (∀ x y : Cfg K, p { x with resolution := y.resolution, calibMode := y.calibMode, calibDict := y.calibDict, adcProfile := y.adcProfile, binSize := y.binSize } = p x) →
          (∀ x y : Cfg K, p { x with hrsNoise := y.hrsNoise, lrsNoise := y.lrsNoise, d2d := y.d2d, c2c := y.c2c } = p x) →
          (∀ x y : Cfg K, p { x with readDisturb := y.readDisturb, parasitics := y.parasitics, vRead := y.vRead } = p x) →
          (∀ x y : Cfg K, p { x with tRead := y.tRead, updFreq := y.updFreq, strategy := y.strategy, fp := y.fp, tol := y.tol } = p x) →
          (∀ x y : Cfg K, p { x with wRes := y.wRes, parasitics := y.parasitics } = p x) → p s.c3 = p { s.c2 with digitalOnly := s.dig } :=
        fun p q1 q2 q3 q4 q5 q6 => via p (applyPar_frame a.par) ((q6 _ _).trans (via p (applyRd_frame a.rd) ((q5 _ _).trans
          (via p (applyVRead_frame a.vRead) ((q4 _ _).trans (via p (applyNoise_frame a.noise) ((q3 _ _).trans
          (via p (applyAdc_frame a.adc) ((q2 _ _).trans (via p (applyStates_frame a.states) (q1 _ _)))))))))))
      exact ⟨(g Cfg.M (fun _ _ => rfl) (fun _ _ => rfl) (fun _ _ => rfl) (fun _ _ => rfl) (fun _ _ => rfl) (fun _ _ => rfl)).trans q.1,
        (g Cfg.N (fun _ _ => rfl) (fun _ _ => rfl) (fun _ _ => rfl) (fun _ _ => rfl) (fun _ _ => rfl) (fun _ _ => rfl)).trans q.2,
        g Cfg.mode (fun _ _ => rfl) (fun _ _ => rfl) (fun _ _ => rfl) (fun _ _ => rfl) (fun _ _ => rfl) (fun _ _ => rfl),
        g Cfg.digitalOnly (fun _ _ => rfl) (fun _ _ => rfl) (fun _ _ => rfl) (fun _ _ => rfl) (fun _ _ => rfl) (fun _ _ => rfl)⟩
  have v : ∀ {α : Type} (p : Cfg K → α), (∀ x y : Cfg K, p { x with wBit := y.wBit, iBit := y.iBit, split := y.split } = p x) →
      (∀ (x : Cfg K) b, p { x with verbose := b } = p x) → p c' = p s.c3 :=
    fun p q1 q2 => via p s.out ((q2 _ _).trans (via p fb (q1 _ _)))
  have hdig : c'.digitalOnly = s.dig := (v Cfg.digitalOnly (fun _ _ => rfl) (fun _ _ => rfl)).trans f3.2.2.2
  unfold applyConfig
  rw [dims_again s.dims ((v Cfg.M (fun _ _ => rfl) (fun _ _ => rfl)).trans f3.1) ((v Cfg.N (fun _ _ => rfl) (fun _ _ => rfl)).trans f3.2.1), ok_bind,
    mode_again s.mode ((v Cfg.mode (fun _ _ => rfl) (fun _ _ => rfl)).trans f3.2.2.1), ok_bind, s.digital, ok_bind]
  have hc : { c' with digitalOnly := s.dig } = c' := by rw [← hdig]
  dsimp only
  rw [hc]
  have ha : (if s.dig = true then .ok c' else applyAnalog E j c') = .ok c' := by
    rcases e3 with ⟨_, e3⟩ | ⟨e3, e4⟩
    · rw [if_pos e3]
    · rw [if_neg (by rw [e3]; decide)]
      have t3 : c'.adcType = s.c3.adcType := v Cfg.adcType (fun _ _ => rfl) (fun _ _ => rfl)
      have r3 : c'.resolution = s.c3.resolution := v Cfg.resolution (fun _ _ => rfl) (fun _ _ => rfl)
      refine analog_again e4 (fun hi => r3 ▸ hr (hdig.trans e3) (t3 ▸ hi)) ?_
      exact cfg_shape fb s.out
  rw [ha, ok_bind, bits_again s.bits (v Cfg.mode (fun _ _ => rfl) (fun _ _ => rfl)) (via Cfg.wBit s.out rfl) (via Cfg.iBit s.out rfl)
    (via Cfg.split s.out rfl), ok_bind, s.verbose, ok_bind]
  have hv : c'.verbose = s.verb := via Cfg.verbose s.out rfl
  rw [← hv]

end Acs
