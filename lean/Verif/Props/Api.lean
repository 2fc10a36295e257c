import Verif.Props.Config

/-!
# The library interface: C09, C45, C47, C48, C53, C57, C58
-/

namespace Acs.Props

open Spec

variable {K : Type} [Field K] [LinearOrder K] [IsStrictOrderedRing K] [FloorRing K]
variable {E : Env K} {w w' : World K} {j : Json K} {hs : List Op}

/-! ## C09: calls the crossbar cannot serve -/

/-- A state or dimensions with which `cpy_mtrx` and `exe_mvm` must not touch the crossbar. -/
def Unservable (w : World K) (m n : Int) : Prop :=
  w.xbar = none ∨ (w.cfg.M : Int) < m ∨ (w.cfg.N : Int) < n ∨ (m < 0 ∧ w.cfg.M < 2147483648) ∨
    (n < 0 ∧ w.cfg.N < 2147483648)

/-- The C interface (and `cpy_mtrx_pb`) returns -1 and changes neither the state nor the result
buffer.  Negative dimensions are recognised if the crossbar has less than `2^31` rows and columns.

Full statement: the same for `exe_mvm_pb`, and for negative dimensions whatever `M` and `N` are.
Missing: `exe_mvm_pb` checks nothing (`C09_false_null`, `C09_false_dims`), and a crossbar with `M` or
`N` of `2^31` or more passes negative dimensions on (`C09_false_negative`). -/
theorem C09_rejected_partial {m n : Int} (hm : -2147483648 ≤ m ∧ m < 2147483648)
    (hn : -2147483648 ≤ n ∧ n < 2147483648) (h : Unservable w m n) (res vec mat : Vec Int)
    (l : String) :
    cpyMtrx E mat m n w = .ok (w, -1) ∧ exeMvm E res vec mat m n l w = .ok (w, res, -1) := by
  unfold cpyMtrx exeMvm
  cases hx : w.xbar with
  | none => exact ⟨rfl, rfl⟩
  | some x =>
    have hb : tooBig w m n := by
      rcases h with h | h
      · rw [hx] at h; cases h
      · exact tooBig_of hm hn h
    dsimp only
    rw [if_pos hb, if_pos hb]
    exact ⟨rfl, rfl⟩

example : ∃ w, Reach Ex.env false w ∧ decide (w.xbar.isSome = true ∧ w.cfg.M = 2 ∧ w.cfg.N = 3) = true :=
  Ex.arrived (.good (Ex.digital .bnn6)) [] _ (by decide +kernel)

/-- Conversely, whatever is not rejected fits the crossbar (of less than `2^31` rows and columns). -/
theorem C09_served {m n : Int} (hm : -2147483648 ≤ m ∧ m < 2147483648)
    (hn : -2147483648 ≤ n ∧ n < 2147483648) (hM : w.cfg.M < 2147483648) (hN : w.cfg.N < 2147483648)
    {res vec mat r : Vec Int} {l : String} {z : Int}
    (h : cpyMtrx E mat m n w = .ok (w', z) ∨ exeMvm E res vec mat m n l w = .ok (w', r, z)) :
    (z = -1 ∧ w' = w) ∨ (z = 0 ∧ 0 ≤ m ∧ m ≤ w.cfg.M ∧ 0 ≤ n ∧ n ≤ w.cfg.N) := by
  rcases h with h | h
  · rcases cpyMtrx_inv h with ⟨h1, h2, _⟩ | ⟨_, _, _, h1, h2, _⟩
    · exact Or.inl ⟨h2, h1⟩
    · exact Or.inr ⟨h2, (not_tooBig_iff hm hn hM hN).1 h1⟩
  · rcases exeMvm_inv h with ⟨h1, _, h2, _⟩ | ⟨_, _, _, h1, h2, _⟩
    · exact Or.inl ⟨h2, h1⟩
    · exact Or.inr ⟨h2, (not_tooBig_iff hm hn hM hN).1 h1⟩

example : ∃ w, Reach Ex.env false w ∧
    Ex.goes (cpyMtrx Ex.env Ex.mat 2 3 w) (fun q => decide (q.2 = 0)) = true :=
  Ex.arrived (.good (Ex.digital .bnn6)) [] _ (by decide +kernel)

/-- Updates without a crossbar or without a document are rejected. -/
theorem C09_update (d : Doc K) (h : w.xbar = none ∨ d = .null) :
    updateConfig E d w = .ok (w, -1) := by
  unfold updateConfig
  cases hx : w.xbar with
  | none => rfl
  | some x =>
    rcases h with h | rfl
    · rw [hx] at h; cases h
    · rfl

/-- `exe_mvm_pb` dereferences the null pointer when no configuration is loaded. -/
theorem C09_false_null : ∃ w : World ℚ, Reach Ex.env false w ∧
    ∀ res vec mat m n, exeMvmPb Ex.env res vec mat m n w = .error (.dead .nullDeref) :=
  ⟨world0, .boot (f := .unnamed) rfl, fun _ _ _ _ _ => rfl⟩

/-- `exe_mvm_pb` does not check the dimensions: with four rows on a crossbar of two it reads outside
of the matrix. -/
theorem C09_false_dims : ∃ w : World ℚ, Reach Ex.env false w ∧ w.cfg.M = 2 ∧ w.cfg.N = 3 ∧
    exeMvmPb Ex.env (Vec.ofList [0, 0, 0, 0]) Ex.vec Ex.mat 4 3 w = .error (.dead .oob) := by
  obtain ⟨w, h1, h2⟩ := Ex.arrived (E := Ex.env) (b := false) (.good (Ex.digital .bnn6))
    [.write Ex.mat 2 3] (fun w => decide (w.cfg.M = 2 ∧ w.cfg.N = 3) &&
      Ex.dies (exeMvmPb Ex.env (Vec.ofList [0, 0, 0, 0]) Ex.vec Ex.mat 4 3 w) .oob)
    (by decide +kernel)
  rw [Bool.and_eq_true, decide_eq_true_iff] at h2
  exact ⟨w, h1, h2.1.1, h2.1.2, Ex.dies_spec h2.2⟩

/-- With `"M": -1`, which is accepted and means 4294967295 rows, no number of rows is rejected.  (The
state is written down rather than reached: building such a crossbar needs 4294967295 rows.) -/
theorem C09_false_negative (w : World K) (h : w.cfg.M = 4294967295) (hN : 3 ≤ w.cfg.N) (m : Int) :
    ¬tooBig w m 3 := by
  unfold tooBig toU32
  omega

example : Ex.okAnd (applyConfig Ex.env (Ex.digital .bnn6 [("M", .int (-1))]) cfg0)
    (fun c => decide (c.M = 4294967295)) = true := by decide +kernel

/-! ## C45: updates -/

/-- An accepted update builds a new crossbar if the value of a structural key changes, keeps the
crossbar with everything in it if none does, and has no effect at all if no value changes.  The stored
document takes the new values and nothing else. -/
theorem C45_rebuild_iff_structural (hk : DistinctKeys j)
    (h : updateConfig E (.good j) w = .ok (w', 0)) :
    ((∃ k, structural k ∧ Changes E w.data j k) →
      ∃ x', w'.xbar = some x' ∧ Fresh E w'.cfg x' ∧ x'.writes = 0 ∧ x'.mvms = 0) ∧
    ((∀ k, structural k → ¬Changes E w.data j k) → w'.xbar = w.xbar) ∧
    ((∀ k, ¬Changes E w.data j k) → w' = w) ∧
    (∀ k, ¬Changes E w.data j k → w'.data.find k = w.data.find k) ∧
    (∀ k v, (k, v) ∈ j.items → Changes E w.data j k → w'.data.find k = some v) := by
  refine ⟨fun hc => ?_, fun hc => (update_keep hc hk h).1, fun hc => ?_, ?_⟩
  · obtain ⟨x, h1, ⟨rng, hists, h2⟩, _⟩ := update_rebuild hc hk h
    obtain ⟨_, _, _, h3, h4, _⟩ := mkXbar_inv h2
    exact ⟨x, h1, ⟨rng, hists, h2⟩, h3, h4⟩
  · obtain ⟨_, q, h2, _, rfl⟩ := update_keep (fun k _ => hc k) hk h
    obtain ⟨_, _, _, a4, _, _, a7, _⟩ := updateCfg_inv hk h2
    refine a7 ?_
    cases hm : q.2.1
    · rfl
    · obtain ⟨k, hk⟩ := a4.1 hm
      exact absurd hk (hc k)
  · rcases updateConfig_inv h with ⟨_, h2, _⟩ | ⟨x, j', q, _, hj, _, hq, h2⟩
    · cases h2
    · cases hj
      obtain ⟨_, _, _, _, _, _, _, a8, a9⟩ := updateCfg_inv hk hq
      have e : w'.data = q.1.data := by
        rcases h2 with ⟨_, _, _, _, _, _, _, h7⟩ | ⟨_, rfl⟩
        · exact h7
        · rfl
      rw [e]
      exact ⟨a8, a9⟩

/-- The list of structural keys is complete up to `w_res`: after an update that keeps the crossbar and
does not touch `w_res`, building a crossbar from the new configuration would give the same result as
building it from the old one. -/
theorem C45_keys_complete (hr : Reach E false w) (hk : DistinctKeys j)
    (hc : ∀ k, structural k → ¬Changes E w.data j k) (hw : ¬Changes E w.data j "w_res")
    (h : updateConfig E (.good j) w = .ok (w', 0)) (rng : Nat) (hists : List (String × Hist K)) :
    mkXbar E w'.cfg rng hists = mkXbar E w.cfg rng hists := by
  obtain ⟨_, q, h2, h3, rfl⟩ := update_keep hc hk h
  obtain ⟨_, _, _, _, _, a6, a7, a8, _⟩ := updateCfg_inv hk h2
  cases hm : q.2.1
  · rw [a7 hm]
  · have ag : SameKeys w.data q.1.data := fun k hs => a8 k (hc k hs)
    rcases (inv_reach hr).loaded with ⟨_, e⟩ | ⟨c, e⟩
    · exact absurd ((ag "M" (structural_of (by decide))).trans (by rw [e]; rfl)) (apply_find (a6 hm))
    · obtain ⟨b1, _, b3, _⟩ := apply_again ag e (a6 hm)
      obtain ⟨b4, b5⟩ := b3 (a8 _ hw)
      exact mkXbar_other b1 b4 b5 rng hists

example : ∃ w, Reach Ex.env false w ∧ (!(Json.items (K := ℚ) (.obj [("I_BIT", .int 5)])).any (fun p =>
      chg Ex.env w.data p && recreationKeys.contains p.1) &&
    Ex.goes (updateConfig Ex.env (.good (.obj [("I_BIT", .int 5)])) w) fun q => decide (q.2 = 0)) = true :=
  Ex.arrived (.good (Ex.digital .iOffsWDiff)) [.write Ex.matI 2 3] _ (by decide +kernel)

/-! ## C47: the crossbar fits its configuration -/

/-- In every state reached without exceptions, the arrays of the crossbar have the dimensions, the
mapping and the slicing of the current configuration.

Full statement: also when the program goes on after an exception.  Missing: an exception while a new
crossbar is built leaves the old crossbar with the new configuration, see `C47_false`. -/
theorem C47_matches_partial (h : Reach E false w) {x : Xbar K} (hx : w.xbar = some x) :
    Matches w.cfg x :=
  ((inv_reach h).xbar x hx).matches

example : ∃ w, Reach Ex.env false w ∧ decide (w.cfg.M = 1 ∧ w.cfg.mode = .tnn4 ∧ w.xbar.isSome) = true :=
  Ex.arrived (.good (Ex.digital .iOffsWDiff))
    [.write Ex.matI 2 3, .update (.good (.obj [("I_BIT", .int 5)])), .mvm Ex.res Ex.vecI Ex.matI 2 3 "",
     .update (.good (.obj [("W_BIT", .int 2), ("SPLIT", .arr [.int 1, .int 1]),
      ("m_mode", .str "TNN_IV"), ("M", .int 1)])), .write Ex.matT 1 3] _ (by decide +kernel)

/-- An update to `I_TC_W_DIFF` with parasitics throws while the new crossbar is built.  The crossbar
is then still the old one, with another mapping and slicing than the configuration. -/
theorem C47_false : ∃ (w : World ℚ) (x : Xbar ℚ), Reach Ex.env true w ∧ w.xbar = some x ∧
    ¬Matches w.cfg x := by
  obtain ⟨w, h1, h2⟩ := Ex.arrived (E := Ex.env) (b := true) (.good (Ex.wired .bnn1 1)) []
    (fun w => Ex.throws (after Ex.env w (.update (.good (.obj [("m_mode", .str "I_TC_W_DIFF")]))))
      fun w => decide (w.cfg.mode = .iTcWDiff) && Ex.hasXbar w fun x =>
        decide (x.mapper.core.mode = .bnn1)) (by decide +kernel)
  obtain ⟨w', h3, h4⟩ := Ex.throws_spec h2
  rw [Bool.and_eq_true, decide_eq_true_iff] at h4
  obtain ⟨x, h5, h6⟩ := Ex.hasXbar_spec h4.2
  refine ⟨w', x, .caught h1 rfl h3, h5, fun h => ?_⟩
  have := h.mode
  rw [h4.1, of_decide_eq_true h6] at this
  cases this

/-! ## C48: the wire resistance -/

/-- After loading a file, or an update that rebuilds the crossbar, the solver uses the configured wire
resistance.

Full statement: after every update of `w_res`.  Missing: `w_res` is not a structural key, see
`C48_ignored`, `C48_false_stale` and `C48_false_null`. -/
theorem C48_rebuilt_partial (h : setConfig E (.good j) w = .ok w' ∨
      ((∃ k, structural k ∧ Changes E w.data j k) ∧ DistinctKeys j ∧
        updateConfig E (.good j) w = .ok (w', 0)))
    (hd : w'.cfg.digitalOnly = false) (hp : w'.cfg.parasitics = true) :
    ∃ x s, w'.xbar = some x ∧ x.mapper.core.par = some s ∧ s.wRes = w'.cfg.wRes ∧
      s.vRead = w'.cfg.vRead ∧ s.mXbar = w'.cfg.M ∧ s.nXbar = w'.cfg.N := by
  have hf : ∃ x, w'.xbar = some x ∧ Fresh E w'.cfg x := by
    rcases h with h | ⟨hc, hk, h⟩
    · obtain ⟨_, x, h2, h3, _⟩ := setConfig_inv h
      exact ⟨x, h2, _, _, h3⟩
    · obtain ⟨x, h2, h3, _⟩ := update_rebuild hc hk h
      exact ⟨x, h2, h3⟩
  obtain ⟨x, hx, rng, hists, hm⟩ := hf
  obtain ⟨_, _, _, _, _, _, _, _, _, h3, _⟩ := mkCore_inv (mkXbar_inv hm).1
  unfold optSolver at h3
  rw [hd, hp] at h3
  simp only [Bool.not_false, Bool.and_self, if_true] at h3
  rw [bind_eq_ok] at h3
  obtain ⟨s, h4, h3⟩ := h3
  rw [ok_inj] at h3
  unfold mkSolver at h4
  split at h4
  · cases h4
  · rw [ok_inj] at h4
    subst h4
    exact ⟨x, _, hx, h3.symm, rfl, rfl, rfl, rfl⟩

example : ∃ w', setConfig Ex.env (.good (Ex.wired .bnn1 7)) world0 = .ok w' ∧
    decide (w'.cfg.digitalOnly = false ∧ w'.cfg.parasitics = true ∧ w'.cfg.wRes = 7) = true :=
  Ex.goes_spec (by decide +kernel)

/-- A changed `w_res` alone never reaches the crossbar: the crossbar, with the solver in it, stays the
same, and a multiplication does not look at the configured value. -/
theorem C48_ignored (hk : DistinctKeys j) (hc : ∀ k, Changes E w.data j k → k = "w_res")
    (h : updateConfig E (.good j) w = .ok (w', 0)) :
    w'.xbar = w.xbar ∧ ∀ (cfg : Cfg K) (a : K) (x : Xbar K) (res vec mat : Vec Int) (m n : Nat)
      (l : String), xMvm E { cfg with wRes := a } x res vec mat m n l =
        xMvm E cfg x res vec mat m n l := by
  refine ⟨(update_keep (fun k hs hch => ?_) hk h).1, fun _ _ _ _ _ _ _ _ _ => rfl⟩
  rw [hc k hch] at hs
  exact absurd (structural_iff.1 hs) (by decide)

/-- `w_res` is raised from 1 to 1000000: the configuration says so, the result is still the one for 1,
and a crossbar loaded with the new value gives another one. -/
theorem C48_false_stale : ∃ (w w₁ w₂ w₃ w₄ : World ℚ) (r₁ r₂ : Vec Int), Reach Ex.env false w ∧
    updateConfig Ex.env (.good (.obj [("w_res", .int 1000000)])) w = .ok (w₁, 0) ∧ w₁.cfg.wRes = 1000000 ∧
    exeMvm Ex.env Ex.res Ex.vec Ex.mat 2 3 "" w₁ = .ok (w₂, r₁, 0) ∧ r₁.get 1 = 17 ∧
    Reach Ex.env false w₃ ∧ w₃.cfg.wRes = 1000000 ∧
    exeMvm Ex.env Ex.res Ex.vec Ex.mat 2 3 "" w₃ = .ok (w₄, r₂, 0) ∧ r₂.get 1 = 20 := by
  obtain ⟨w, h1, h2⟩ := Ex.arrived (E := Ex.env) (b := false) (.good (Ex.wired .bnn1 1))
    [.write Ex.mat 2 3]
    (fun w => Ex.goes (updateConfig Ex.env (.good (.obj [("w_res", .int 1000000)])) w) fun q =>
      decide (q.2 = 0 ∧ q.1.cfg.wRes = 1000000) &&
      Ex.goes (exeMvm Ex.env Ex.res Ex.vec Ex.mat 2 3 "" q.1) fun q =>
        decide (q.2.2 = 0 ∧ q.2.1.get 1 = 17)) (by decide +kernel)
  obtain ⟨w₃, h3, h4⟩ := Ex.arrived (E := Ex.env) (b := false) (.good (Ex.wired .bnn1 1000000))
    [.write Ex.mat 2 3]
    (fun w => decide (w.cfg.wRes = 1000000) &&
      Ex.goes (exeMvm Ex.env Ex.res Ex.vec Ex.mat 2 3 "" w) fun q =>
        decide (q.2.2 = 0 ∧ q.2.1.get 1 = 20)) (by decide +kernel)
  obtain ⟨⟨w₁, _⟩, h5, h6⟩ := Ex.goes_spec h2
  rw [Bool.and_eq_true, decide_eq_true_iff] at h6
  obtain ⟨⟨rfl, h7⟩, h8⟩ := h6
  obtain ⟨⟨w₂, r₁, _⟩, h9, h10⟩ := Ex.goes_spec h8
  obtain ⟨rfl, h11⟩ := of_decide_eq_true h10
  rw [Bool.and_eq_true, decide_eq_true_iff] at h4
  obtain ⟨⟨w₄, r₂, _⟩, h12, h13⟩ := Ex.goes_spec h4.2
  obtain ⟨rfl, h14⟩ := of_decide_eq_true h13
  exact ⟨w, w₁, w₂, w₃, w₄, r₁, r₂, h1, h5, h7, h9, h11, h3, h4.1, h12, h14⟩

/-- Parasitics loaded with `w_res: 0`, then `w_res` is changed: the next multiplication dereferences
the null pointer of the solver. -/
theorem C48_false_null (md : Mode) : ∃ (w : World ℚ), Reach Ex.env false w ∧ w.cfg.mode = md ∧
    exeMvm Ex.env Ex.res Ex.vec Ex.mat 2 3 "" w = .error (.dead .nullDeref) := by
  obtain ⟨w, h1, h2⟩ := Ex.arrived (E := Ex.env) (b := false) (.good (Ex.wired md 0))
    [.write Ex.mat 2 3, .update (.good (.obj [("w_res", .int 1)]))]
    (fun w => decide (w.cfg.mode = md) &&
      Ex.dies (exeMvm Ex.env Ex.res Ex.vec Ex.mat 2 3 "" w) .nullDeref)
    (by cases md <;> decide +kernel)
  rw [Bool.and_eq_true, decide_eq_true_iff] at h2
  exact ⟨w, h1, h2.1, Ex.dies_spec h2.2⟩

/-! ## C53: verbose output -/

/-- Releasing a crossbar without `verbose`, or with an integer mapping, never ends the program; so
`set_config` gets as far as reading its file, and an update that keeps these properties does not end
the program by releasing the old crossbar.

Full statement: without the hypothesis.  Missing: it is false, see `C53_false`. -/
theorem C53_release_partial (h : w.cfg.verbose = false ∨ w.cfg.mode.family = .int) (f : File K) :
    release w = .ok () ∧ (setConfig E f w = do
      let r ← loadCfg E f w.drop
      let x ← newXbar E r.1
      .ok { r.1 with xbar := some x }) := by
  have hr : release w = .ok () := by
    unfold release
    cases w.xbar with
    | none => rfl
    | some x =>
      dsimp only
      unfold destroyXbar
      rcases h with h | h
      · rw [h]; rfl
      · cases hm : w.cfg.mode <;> rw [hm] at h <;> first | (cases h; done) | (split <;> rfl)
  refine ⟨hr, ?_⟩
  unfold setConfig
  rw [hr]
  rfl

/-- With `verbose` and a binary or ternary mapping, `set_config` always ends the program, whatever the
new file says. -/
theorem C53_false (hx : w.xbar.isSome = true) (hv : w.cfg.verbose = true)
    (hm : w.cfg.mode.family ≠ .int) (f : File K) : setConfig E f w = .error (.dead .exited) := by
  obtain ⟨x, hx⟩ := Option.isSome_iff_exists.1 hx
  have hr : release w = .error (.dead .exited) := by
    unfold release
    rw [hx]
    dsimp only
    unfold destroyXbar
    rw [hv]
    cases hm' : w.cfg.mode <;> rw [hm'] at hm <;> first | rfl | exact absurd rfl hm
  unfold setConfig
  rw [hr]
  rfl

example : ∃ w, Reach Ex.env false w ∧ decide (w.xbar.isSome = true ∧ w.cfg.verbose = true ∧
    w.cfg.mode.family ≠ .int) = true :=
  Ex.arrived (.good (Ex.digital .bnn1)) [.update (.good (.obj [("verbose", .bool true)]))] _
    (by decide +kernel)

example : ∃ w, Reach Ex.env false w ∧ decide (w.xbar.isSome = true ∧ w.cfg.verbose = true ∧
    w.cfg.mode.family = .int) = true :=
  Ex.arrived (.good (Ex.digital .iOffsWDiff [("verbose", .bool true)])) [] _ (by decide +kernel)

/-! ## C57, C58: whole sessions -/

/-- C58.  Between updates that keep the crossbar, a session through the interface is a run of the
crossbar in the sense of all other theorems: whatever was loaded and done before, the crossbar behaves
like a new one that served exactly the calls since it was built. -/
theorem C58_session_is_run (h : Settled E hs w) : ∃ x, w.xbar = some x ∧ Runs E w.cfg hs x :=
  settled_runs h

/-- C57.  A multiplication in a digital session is exact: it adds the product with the matrix written
last, across updates that keep the crossbar (of `I_BIT`, `verbose`, `d2d_var`, ...), rejected calls and
everything that happened before the crossbar was built. -/
theorem C57_session_exact (h : Session E hs w) (hok : CfgOk w.cfg)
    (hgcc : shiftsSigned w.cfg.mode → E.strict = false) (hdo : w.cfg.digitalOnly = true) {k : Nat}
    (hv : ∀ i j v, lastWrite hs i j = some v → LegalW w.cfg v)
    (hw : keepsRowSums w.cfg.mode → WidthIs k hs) {res vec mat : Vec Int} {m n : Nat} {l : String}
    (hl : LegalMvm w.cfg k hs res vec m n) (hm : m < 2147483648 ∧ n < 2147483648) :
    ∃ w' r, exeMvm E res vec mat m n l w = .ok (w', r, 0) ∧ Adds r res (stored hs) vec m n :=
  session_mvm h hok hgcc hdo ⟨hv, hw⟩ hl hm

/-- C57.  Legal writes in a digital session succeed. -/
theorem C57_session_write (h : Session E hs w) (hok : CfgOk w.cfg) (hdo : w.cfg.digitalOnly = true)
    {k : Nat} {mat : Vec Int} {m n : Nat} (hl : LegalWrite w.cfg k mat m n)
    (hm : m < 2147483648 ∧ n < 2147483648) :
    ∃ w', cpyMtrx E mat m n w = .ok (w', 0) ∧ Session E (.write mat m n :: hs) w' := by
  obtain ⟨w', h'⟩ := session_write h hok hdo hl hm
  exact ⟨w', h', .write h hm h'⟩

/-- Loading the library with a file is the same as loading the file afterwards. -/
theorem C58_boot (h : boot E (.good j) = .ok w) : setConfig E (.good j) world0 = .ok w := by
  rcases boot_inv h with ⟨h, _⟩ | ⟨j', x, h1, h2, h3, h4, h5⟩
  · cases h
  · cases h1
    unfold boot at h
    dsimp only at h
    split at h
    · next w1 e =>
      rw [ok_inj] at h
      subst h
      rw [rbind_ok] at e
      obtain ⟨q, h6, e⟩ := e
      have h7 : loadCfg E (.good j) (world0 : World K).drop = .ok q := h6
      have hq : q.2 = true := by
        unfold loadCfg at h6
        dsimp only at h6
        rw [rbind_ok] at h6
        obtain ⟨_, _, h6⟩ := h6
        cases h6
        rfl
      rw [if_pos hq] at e
      unfold setConfig
      show (do
        let r ← loadCfg E (.good j) (world0 : World K).drop
        let x ← newXbar E r.1
        (.ok { r.1 with xbar := some x } : R K (World K))) = _
      rw [h7]
      exact e
    · cases h
    · cases h

/-- The configuration of the example below. -/
def Ex.sessionCfg : Cfg ℚ := { (cfg0 : Cfg ℚ) with
  M := 2
  N := 3
  split := [2, 1]
  wBit := 3
  iBit := 3
  digitalOnly := true
  mode := .iOffsWDiff
  verbose := true }

deriving instance DecidableEq for Cfg

/-- A session with a write and an update between the write and the multiplication. -/
theorem Ex.session : ∃ w, Session Ex.env [.write Ex.matI 2 3] w ∧
    CfgOk w.cfg ∧ w.cfg.digitalOnly = true ∧
    (∀ i j v, lastWrite [.write Ex.matI 2 3] i j = some v → LegalW w.cfg v) ∧
    (keepsRowSums w.cfg.mode → WidthIs 3 [.write Ex.matI 2 3]) ∧
    LegalMvm w.cfg 3 [.write Ex.matI 2 3] Ex.res Ex.vecI 2 3 := by
  have hu : ∀ {w : World ℚ}, (Json.items (K := ℚ) (.obj [("verbose", .bool true)])).any (fun p =>
      chg Ex.env w.data p && recreationKeys.contains p.1) = false →
      ∀ k, structural k → ¬Changes Ex.env w.data (.obj [("verbose", .bool true)]) k :=
    fun h k hs hc => by
      rw [recreate_iff.2 ⟨k, hs, hc⟩] at h
      cases h
  obtain ⟨w1, h1, h2⟩ := Ex.goes_spec (x := setConfig Ex.env (.good (Ex.digital .iOffsWDiff)) world0)
    (p := fun w => Ex.goes (cpyMtrx Ex.env Ex.matI (2 : Nat) (3 : Nat) w) fun q => decide (q.2 = 0) &&
      (!(Json.items (K := ℚ) (.obj [("verbose", .bool true)])).any (fun p =>
        chg Ex.env q.1.data p && recreationKeys.contains p.1) &&
      Ex.goes (updateConfig Ex.env (.good (.obj [("verbose", .bool true)])) q.1) fun q =>
        decide (q.2 = 0 ∧ q.1.cfg = Ex.sessionCfg))) (by decide +kernel)
  obtain ⟨⟨w2, _⟩, h3, h4⟩ := Ex.goes_spec h2
  rw [Bool.and_eq_true, Bool.and_eq_true, decide_eq_true_iff, Bool.not_eq_true'] at h4
  obtain ⟨rfl, h5, h6⟩ := h4
  obtain ⟨⟨w3, _⟩, h7, h8⟩ := Ex.goes_spec h6
  obtain ⟨rfl, h9⟩ := of_decide_eq_true h8
  refine ⟨w3, .keep (.write (.load h1) (by decide) h3) (hu h5) (List.nodup_singleton _) h7, ?_⟩
  rw [show w3.cfg = Ex.sessionCfg from h9]
  refine ⟨Ex.cfg_ok .iOffsWDiff, rfl, fun i j v hv => ?_, fun _ op hop => ?_, ?_⟩
  · simp only [lastWrite] at hv
    split at hv
    · next hij => rw [← Option.some.inj hv]; exact Ex.legal_matI i j hij.1 hij.2
    · cases hv
  · rw [List.mem_singleton] at hop
    subst hop
    rfl
  · refine ⟨Ex.accepted .iOffsWDiff, by decide, by decide, Ex.legal_vecI, Ex.room .iOffsWDiff,
      fun i j hi hj => ?_, fun _ => rfl⟩
    simp [lastWrite, hi, hj]

example : ∃ w w' r, Session Ex.env [.write Ex.matI 2 3] w ∧
    exeMvm Ex.env Ex.res Ex.vecI Ex.matI (2 : Nat) (3 : Nat) "" w = .ok (w', r, 0) ∧
    Adds r Ex.res (stored [.write Ex.matI 2 3]) Ex.vecI 2 3 := by
  obtain ⟨w, h1, h2, h3, h4, h5, h6⟩ := Ex.session
  obtain ⟨w', r, h⟩ := C57_session_exact (mat := Ex.matI) (l := "") h1 h2 (fun _ => rfl) h3 h4 h5 h6 (by decide)
  exact ⟨w, w', r, h1, h⟩

end Acs.Props
